import Verif.Props.PolyText
import Verif.Proof.FpnMod

/-!
# C93: polynomials over F_2^n and F_p^n, and residues, as text
-/

namespace Spffl.Props
namespace PText93
open Res Spffl.Scan Spffl.PText Polynomial CPoly

/-! ### f2_polymod_t -/

section F2
open F2P
variable {m : (ZMod 2)[X]} {mm : F2P}

/-- Blanks, then the hexadecimal digits of a representative of `x`. -/
def F2Word (m : (ZMod 2)[X]) (t : List Char) (x : AdjoinRoot m) : Prop :=
  ∃ ws ds q, t = ws ++ ds ∧ (∀ c ∈ ws, isBlank c = true) ∧ ds ≠ [] ∧ (∀ c ∈ ds, (hexVal c).isSome = true) ∧
    nval q = hexNum ds 0 ∧ x = AdjoinRoot.mk m q

/-- The text starts so, and what follows is not a digit. -/
def F2Reads (m : (ZMod 2)[X]) (t : List Char) (x : AdjoinRoot m) : Prop :=
  ∃ w tail, t = w ++ tail ∧ F2Word m w x ∧ ∀ c ∈ tail.head?, hexVal c = none

theorem f2_get (hc : Canon mm) (hm : toPoly mm = m) (hm0 : m ≠ 0) {w : List Char} {x : AdjoinRoot m} (h : F2Word m w x)
    {tail : List Char} (ht : ∀ c ∈ tail.head?, hexVal c = none) :
    ∃ r a, F2P.read (w ++ tail) = ok (r, false, tail) ∧ F2Mod.mk' r mm = ok a ∧ F2Mod.Rep m a x ∧ a.modulus = mm := by
  obtain ⟨ws, ds, q, rfl, hw, hne, hd, hq, rfl⟩ := h
  obtain ⟨⟨r, f, s⟩, h, h1, h2, h3, h4⟩ := read_ok hw hne hd (rest := tail) (fun c hc => ht c hc)
  dsimp only at h1 h2 h3 h4
  subst h3 h4
  obtain ⟨a, ha, hrep, ham⟩ := F2Mod.mk'_ok h2.good hc hm hm0
  refine ⟨r, a, h, ha, ?_, ham⟩
  rwa [nval_inj (h1.trans hq.symm)] at hrep

theorem f2_one_yes (hc : Canon mm) (hm : toPoly mm = m) (hm0 : m ≠ 0) {t : List Char} {x : AdjoinRoot m}
    (h : F2Reads m t x) : (f2nOne mm t).Ok fun o => ∃ a, o = some a ∧ F2Mod.Rep m a x ∧ a.modulus = mm := by
  obtain ⟨w, tail, rfl, hw, ht⟩ := h
  obtain ⟨r, a, h1, h2, h3, h4⟩ := f2_get hc hm hm0 hw ht
  unfold f2nOne
  rw [h1, ok_bind]
  simp only [Bool.false_eq_true, if_false]
  rw [h2, ok_bind]
  exact ⟨_, rfl, a, rfl, h3, h4⟩

theorem f2_one_no (m : (ZMod 2)[X]) {t : List Char} (h : ∀ x : AdjoinRoot m, ¬ F2Reads m t x) : f2nOne mm t = ok none := by
  have hsplit : t.takeWhile isBlank ++ t.dropWhile isBlank = t := List.takeWhile_append_dropWhile
  have hw : ∀ c ∈ t.takeWhile isBlank, isBlank c = true := takeWhile_all _ _
  set u := t.dropWhile isBlank with hu
  have hds : u.takeWhile (fun c => (hexVal c).isSome) = [] := by
    by_contra hne
    have hall : ∀ c ∈ u.takeWhile (fun c => (hexVal c).isSome), (hexVal c).isSome = true :=
      takeWhile_all (fun c => (hexVal c).isSome) _
    obtain ⟨⟨r, f, s⟩, h0, h1, h2, h3, h4⟩ := read_ok (ws := []) (rest := []) (by simp) hne hall (by simp)
    refine h _ ⟨t.takeWhile isBlank ++ u.takeWhile (fun c => (hexVal c).isSome), u.dropWhile (fun c => (hexVal c).isSome), ?_,
      ⟨_, _, toPoly r, rfl, hw, hne, hall, h1, rfl⟩, ?_⟩
    · rw [List.append_assoc, List.takeWhile_append_dropWhile, hsplit]
    · intro c hc
      have := List.head?_dropWhile_not (fun c => (hexVal c).isSome) u
      rw [Option.mem_def] at hc
      rw [hc] at this
      simpa using this
  obtain ⟨r, hr, hf⟩ := read_fail (ws := t.takeWhile isBlank) (rest := u) hw (fun c hc => by
    constructor
    · by_contra hx
      cases hu' : u with
      | nil => rw [hu'] at hc; cases hc
      | cons d r =>
        rw [hu'] at hc hds
        cases hc
        rw [List.takeWhile_cons_of_pos (p := fun c => (hexVal c).isSome) (Option.isSome_iff_ne_none.2 hx)] at hds
        cases hds
    · have := List.head?_dropWhile_not isBlank t
      rw [← hu, hc] at this
      simpa using this)
  rw [hsplit] at hr
  unfold f2nOne
  rw [hr, ok_bind, if_pos hf]

/-- C93: `f2_polymod_t::from_string` accepts exactly the texts that start, after blanks, with a hexadecimal digit, and
makes the residue class of the polynomial that the digits denote. -/
theorem C93_f2mod_from_string (hc : Canon mm) (hm : toPoly mm = m) (hm0 : m ≠ 0) (t : List Char) :
    (∀ x, F2Reads m t x → (f2nOne mm t).Ok fun o => ∃ a, o = some a ∧ F2Mod.Rep m a x) ∧
    ((∀ x : AdjoinRoot m, ¬ F2Reads m t x) → f2nOne mm t = ok none) :=
  ⟨fun _ h => (f2_one_yes hc hm hm0 h).mono fun _ ⟨a, h1, h2, _⟩ => ⟨a, h1, h2⟩, f2_one_no m⟩

example : f2nOne [0x13#64] " 1Fz".toList = ok (some ⟨[0xc#64], [0x13#64]⟩) ∧ f2nOne [0x13#64] "z".toList = ok none := by
  decide +kernel

theorem hexOf_length : ∀ (k n : ℕ), (k = 0 ∨ 16 ^ k ≤ n) → n < 16 ^ (k + 1) → (hexOf n).length = k + 1
  | 0, n, _, h2 => by rw [hexOf_lt (by simpa using h2)]; rfl
  | k + 1, n, h1, h2 => by
    have h1 : 16 ^ (k + 1) ≤ n := h1.resolve_left (by simp)
    have hp : 0 < 16 ^ k := by positivity
    have h16 : 16 ≤ n := by rw [pow_succ] at h1; omega
    rw [hexOf_ge h16, List.length_append, hexOf_length k (n / 16) (Or.inr ?_) ?_]
    · rfl
    · rw [pow_succ] at h1; omega
    · rw [pow_succ] at h2; omega

theorem hexOf_nval_length (p : (ZMod 2)[X]) : (hexOf (nval p)).length = p.natDegree / 4 + 1 := by
  have e : ∀ k, (16 : ℕ) ^ k = 2 ^ (4 * k) := fun k => by rw [pow_mul]; norm_num
  apply hexOf_length
  · by_cases h : p = 0
    · left; subst h; simp
    · right
      rw [e]
      exact (Nat.pow_le_pow_right (by norm_num) (by omega)).trans (pow_le_nval h)
  · rw [e]
    exact (nval_lt_pow p).trans_le (Nat.pow_le_pow_right (by norm_num) (by omega))

theorem hexNum_zeros (k : ℕ) (l : List Char) : hexNum (List.replicate k '0' ++ l) 0 = hexNum l 0 := by
  induction k with
  | zero => rfl
  | succ k ih =>
    rw [List.replicate_succ, List.cons_append, hexNum]
    exact ih

/-- C93: a residue is printed in hexadecimal with as many digits as the greatest residue has, and this text is read back
as the same residue. -/
theorem C93_f2mod_round_trip (hm : 0 < m.natDegree) {a : F2Mod} {x : AdjoinRoot m} (ha : F2Mod.Rep m a x) :
    ∃ t, f2ModShow a = ok t ∧ t.length = (m.natDegree + 3) / 4 ∧ (∀ c ∈ t, (hexVal c).isSome = true) ∧
      hexNum t 0 = nval (toPoly a.residue) ∧ f2nOne a.modulus t = ok (some a) := by
  have hm0 : m ≠ 0 := ha.m_ne
  have hdeg : (toPoly a.residue).natDegree < m.natDegree := by
    by_cases h : toPoly a.residue = 0
    · rw [h, natDegree_zero]; exact hm
    · exact natDegree_lt_natDegree h ha.deg
  have hshow : f2ModShow a = ok (List.replicate ((m.natDegree - 1 + 4) / 4 - ((toPoly a.residue).natDegree + 4) / 4) '0' ++
      hexOf (nval (toPoly a.residue))) := by
    unfold f2ModShow
    rw [find_degree_ok, ok_bind, ha.hm, if_neg (by omega)]
    unfold dprint
    rw [find_degree_ok, ok_bind, print_ok ha.cr.ne_nil, ok_bind]
  have hhex : ∀ c ∈ List.replicate ((m.natDegree - 1 + 4) / 4 - ((toPoly a.residue).natDegree + 4) / 4) '0' ++
      hexOf (nval (toPoly a.residue)), (hexVal c).isSome = true := by
    intro c hc
    rcases List.mem_append.1 hc with hc | hc
    · rw [(List.mem_replicate.1 hc).2]; rfl
    · exact allHex_hexOf _ c hc
  have hnum : hexNum (List.replicate ((m.natDegree - 1 + 4) / 4 - ((toPoly a.residue).natDegree + 4) / 4) '0' ++
      hexOf (nval (toPoly a.residue))) 0 = nval (toPoly a.residue) := by rw [hexNum_zeros, hexNum_hexOf]
  refine ⟨_, hshow, ?_, hhex, hnum, ?_⟩
  · rw [List.length_append, List.length_replicate, hexOf_nval_length]; omega
  · obtain ⟨o, ho, b, rfl, hb, hbm⟩ := f2_one_yes ha.cm ha.hm hm0 (t := List.replicate ((m.natDegree - 1 + 4) / 4 - ((toPoly a.residue).natDegree + 4) / 4) '0' ++
      hexOf (nval (toPoly a.residue))) (x := x) ⟨_, [], (List.append_nil _).symm, ⟨[], _, toPoly a.residue, rfl, by simp,
        by simp [hexOf_ne_nil], hhex, hnum.symm, ha.val.symm⟩, by simp⟩
    rw [ho]
    have hres : toPoly b.residue = toPoly a.residue := hb.inj ha
    have : b.residue = a.residue := hb.cr.eq ha.cr hres
    cases a; cases b; simp_all

example : f2ModShow ⟨[3], [0x11b#64]⟩ = ok "03".toList ∧ f2nOne [0x11b#64] "03".toList = ok (some ⟨[3], [0x11b#64]⟩) := by
  decide +kernel

/-- C93: `operator>>` into a residue: the same from a stream, with the modulus of the object read into. -/
theorem C93_f2mod_stream {b : F2Mod} {y : AdjoinRoot m} (hb : F2Mod.Rep m b y) {w : List Char} {x : AdjoinRoot m}
    (h : F2Word m w x) {rest : List Char} (hr : ∀ c ∈ rest.head?, hexVal c = none) :
    (f2ModExtract b (w ++ rest)).Ok fun r => F2Mod.Rep m r.1 x ∧ r.2 = ⟨rest, rest.isEmpty, false⟩ := by
  obtain ⟨r, a, h1, h2, h3, _⟩ := f2_get hb.cm hb.hm hb.m_ne h hr
  unfold f2ModExtract
  rw [h1, ok_bind]
  dsimp only
  rw [h2, ok_bind]
  exact ⟨_, rfl, h3, rfl⟩

example : f2ModExtract ⟨[0], [0x13#64]⟩ " 1F,2".toList = ok (⟨[0xc#64], [0x13#64]⟩, ⟨",2".toList, false, false⟩) := by
  decide +kernel

/-! ### f2n_poly_t -/

theorem f2n_spec (hc : Canon mm) (hm : toPoly mm = m) (hm0 : m ≠ 0) : OneSpec False (F2Mod.Rep m) (f2nOne mm) (F2Reads m) where
  yes t x h := ((f2_one_yes hc hm hm0 h).mono fun _ ⟨a, h1, h2, _⟩ => ⟨a, h1, h2⟩).sat
  no t h := f2_one_no m h

/-- C93: the coefficients are the non-empty stretches between colons, the highest first.  If one of them does not start
with a hexadecimal digit the text is refused; without any the object is left pointing to deleted memory (violated). -/
theorem C93_f2n_from_string (hc : Canon mm) (hm : toPoly mm = m) (hm0 : m ≠ 0) {cs : List Char} {ts : List (List Char)}
    (hts : (cs.splitOnP (· == ':')).filter (· ≠ []) = ts) :
    (∀ xs, ts ≠ [] → List.Forall₂ (F2Reads m) ts xs → (f2nFromString mm cs).Ok fun r =>
      ∃ b, r = .val b ∧ PRep (F2Mod.Rep m) b (horner xs)) ∧
    ((∃ t ∈ ts, ∀ x : AdjoinRoot m, ¬ F2Reads m t x) → (f2nFromString mm cs).Ok fun r => ∃ b, r = .refused b) ∧
    (ts = [] → f2nFromString mm cs = ok .dangling) := by
  have H := f2n_spec hc hm hm0
  have e : f2nFromString mm cs = fromTokens F2Mod.cops (f2nOne mm) ts := by unfold f2nFromString tokens; rw [hts]
  rw [e]
  refine ⟨fun xs hne hx => ?_, fun hn => ?_, fun h => by rw [h]; rfl⟩
  · exact sat_false.1 (fromTokens_yes (F2Mod.cops_ref hm0).toCmp H.yes hx hne)
  · exact sat_false.1 (fromTokens_no H hn)

example : f2nFromString [7] "2::1".toList = ok (.val ⟨1, [⟨[1], [7]⟩, ⟨[2], [7]⟩]⟩) ∧ f2nFromString [7] "".toList = ok .dangling := by
  decide +kernel

theorem f2nSep_ok {c : F2Mod} {x : AdjoinRoot m} (h0 : F2Mod.Rep m c x) :
    f2nSep c.modulus = ok (if m = 1 then [] else [':']) := by
  have hone : nval (1 : (ZMod 2)[X]) = 1 := by rw [nval, ← C_1, support_C one_ne_zero]; simp
  unfold f2nSep
  rw [F2Mod.gt_ok h0.cm.ne_nil (by simp [F2P.ofInt]), ok_bind, toPoly_ofInt, h0.hm]
  have e9 : (C ((9 : Int) : ZMod 2) : (ZMod 2)[X]) = 1 := by
    rw [show ((9 : Int) : ZMod 2) = 1 by decide, C_1]
  rw [e9, hone]
  by_cases h : m = 1
  · subst h; simp [hone]
  · rw [if_neg h]
    have hm0 := h0.m_ne
    have : 1 < nval m := by
      have h1 : nval m ≠ 0 := fun hz => hm0 (nval_inj (by rw [hz]; simp [nval]))
      have h2 : nval m ≠ 1 := fun hz => h (nval_inj (by rw [hz, hone]))
      omega
    simp [this]

/-- C93: what is printed: the representatives of least degree in hexadecimal, with colons unless the modulus is 1. -/
theorem C93_f2n_print {a : CPoly F2Mod} {f : (AdjoinRoot m)[X]} (ha : PRep (F2Mod.Rep m) a f) :
    ∃ q : ℕ → (ZMod 2)[X], (∀ i, i < f.natDegree + 1 → (q i).degree < m.degree ∧ AdjoinRoot.mk m (q i) = f.coeff i) ∧
      f2nShow a = ok (List.intercalate (if m = 1 then [] else [':'])
        ((List.range (f.natDegree + 1)).reverse.map fun i => hexOf (nval (q i)))) := by
  have hget : ∀ i, ∃ c : F2Mod, i < a.degree + 1 → get_coeff F2Mod.cops a i = ok c ∧ F2Mod.Rep m c (f.coeff i) := by
    intro i
    by_cases h : i < a.degree + 1
    · have : (get_coeff F2Mod.cops a i).Ok fun c => F2Mod.Rep m c (f.coeff i) := by
        unfold get_coeff
        rw [if_neg (by omega), if_neg (by omega), Int.toNat_natCast]
        exact sat_false.1 (rd_sat (ha.co i h))
      obtain ⟨c, h1, h2⟩ := this
      exact ⟨c, fun _ => ⟨h1, h2⟩⟩
    · exact ⟨⟨[], []⟩, fun h' => absurd h' h⟩
  choose g hg using hget
  refine ⟨fun i => toPoly (g i).residue, fun i hi => ?_, ?_⟩
  · have := (hg i (by rw [← ha.deg]; exact hi)).2
    exact ⟨this.deg, this.val⟩
  · have h0 := hg 0 (by omega)
    rw [show ((0 : ℕ) : Int) = 0 from rfl] at h0
    have hsep := f2nSep_ok h0.2
    unfold f2nShow
    rw [h0.1, ok_bind, hsep, ok_bind]
    have hd := down_ok (f := fun i => (get_coeff F2Mod.cops a i >>= fun c => F2P.print c.residue))
      (g := fun i => hexOf (nval (toPoly (g i).residue))) (n := a.degree + 1) (fun i hi => by
        rw [(hg i hi).1, ok_bind, print_ok (hg i hi).2.cr.ne_nil])
    rw [hd, ok_bind, ha.deg]

example : f2nShow ⟨2, [⟨[1], [0x13#64]⟩, ⟨[], [0x13#64]⟩, ⟨[0xe#64], [0x13#64]⟩]⟩ = .throw ∧
    f2nShow ⟨2, [⟨[1], [0x13#64]⟩, ⟨[0], [0x13#64]⟩, ⟨[0xe#64], [0x13#64]⟩]⟩ = ok "e:0:1".toList := by decide +kernel

theorem hexOf_word (q : (ZMod 2)[X]) : F2Word m (hexOf (nval q)) (AdjoinRoot.mk m q) :=
  ⟨[], _, q, rfl, by simp, hexOf_ne_nil _, allHex_hexOf _, (hexNum_hexOf _).symm, rfl⟩

theorem word_reads {t : List Char} {x : AdjoinRoot m} (h : F2Word m t x) : F2Reads m t x := ⟨t, [], by simp, h, by simp⟩

theorem hexOf_colon (n : ℕ) : ':' ∉ hexOf n := fun h => by have := allHex_hexOf n _ h; revert this; decide

theorem forall₂_range {α β : Type} {P : α → β → Prop} {n : ℕ} {g : ℕ → α} {h : ℕ → β} (H : ∀ i, i < n → P (g i) (h i)) :
    List.Forall₂ P ((List.range n).reverse.map g) ((List.range n).reverse.map h) := by
  rw [List.forall₂_map_left_iff, List.forall₂_map_right_iff, List.forall₂_same]
  intro i hi
  exact H i (by simpa using hi)

/-- The text with a colon between any two coefficients is what is printed also if the modulus is 1: the ring is trivial,
and there is only one coefficient. -/
theorem f2n_sep {f : (AdjoinRoot m)[X]} {n : ℕ} (hn : n = f.natDegree + 1) (g : ℕ → List Char) :
    List.intercalate (if m = 1 then [] else [':']) ((List.range n).reverse.map g) =
    List.intercalate [':'] ((List.range n).reverse.map g) := by
  by_cases h : m = 1
  · have : f.natDegree = 0 := by
      have hs : Subsingleton (AdjoinRoot m) := by
        refine subsingleton_of_zero_eq_one ?_
        rw [← map_one (AdjoinRoot.mk m), ← h, AdjoinRoot.mk_self]
      rw [Subsingleton.elim f 0, natDegree_zero]
    subst hn
    rw [this]
    simp
  · rw [if_neg h]

/-- C93: what is printed of a polynomial over F_2[x]/(m) is read back as the same polynomial. -/
theorem C93_f2n_round_trip (hc : Canon mm) (hm : toPoly mm = m) (hm0 : m ≠ 0) {a : CPoly F2Mod} {f : (AdjoinRoot m)[X]}
    (ha : PRep (F2Mod.Rep m) a f) : ∃ t, f2nShow a = ok t ∧
      (f2nFromString mm t).Ok fun r => ∃ b, r = .val b ∧ PRep (F2Mod.Rep m) b f := by
  obtain ⟨q, hq, hs⟩ := C93_f2n_print ha
  refine ⟨_, hs, ?_⟩
  rw [f2n_sep rfl]
  have htok := tokens_intercalate (sep := ':') (ts := (List.range (f.natDegree + 1)).reverse.map fun i => hexOf (nval (q i)))
    (fun t ht => by
      obtain ⟨i, _, rfl⟩ := List.mem_map.1 ht
      exact hexOf_colon _)
    (fun t ht => by
      obtain ⟨i, _, rfl⟩ := List.mem_map.1 ht
      exact hexOf_ne_nil _)
  have := (C93_f2n_from_string hc hm hm0 htok).1 ((List.range (f.natDegree + 1)).reverse.map f.coeff) (by simp)
    (forall₂_range fun i hi => by rw [← (hq i hi).2]; exact word_reads (hexOf_word _))
  rwa [horner_coeffs f (by omega)] at this

/-! #### Streams -/

theorem f2n_get_spec (hc : Canon mm) (hm : toPoly mm = m) (hm0 : m ≠ 0) {t : List Char} {x : AdjoinRoot m} (h : F2Word m t x)
    {tail : List Char} (ht : ∀ c ∈ tail.head?, hexVal c = none) : (f2nGet mm (t ++ tail)).Ok fun r =>
      ∃ a, r = (some a, ⟨tail, tail.isEmpty, false⟩) ∧ F2Mod.Rep m a x := by
  obtain ⟨r, a, h1, h2, h3, _⟩ := f2_get hc hm hm0 h ht
  unfold f2nGet
  rw [h1, ok_bind]
  simp only [Bool.false_eq_true, if_false]
  rw [h2, ok_bind]
  exact ⟨_, rfl, a, rfl, h3⟩

/-- C93: `operator>>` reads coefficients separated by single colons, the highest first, blanks before each being skipped,
and stops where no colon follows.  On a general stream (`guard = false`) the failure bit is set if the text ends there,
although the value has been read (violated); on a string stream it is not. -/
theorem C93_f2n_stream (guard : Bool) (hc : Canon mm) (hm : toPoly mm = m) (hm0 : m ≠ 0) {b : CPoly F2Mod} {c0 : F2Mod}
    (hb : b.coeffs[0]? = some c0) (hb' : c0.modulus = mm) {ts : List (List Char)} {xs : List (AdjoinRoot m)} (hne : ts ≠ [])
    (hts : List.Forall₂ (F2Word m) ts xs) {rest : List Char} (hr : ∀ c ∈ rest.head?, hexVal c = none)
    (hr' : rest.head? ≠ some ':') : (f2nExtract guard b (List.intercalate [':'] ts ++ rest)).Ok fun r =>
      PRep (F2Mod.Rep m) r.1 (horner xs) ∧ r.2 = ⟨rest, rest.isEmpty, !guard && rest.isEmpty⟩ := by
  cases hts with
  | nil => exact absurd rfl hne
  | @cons t x ts xs ht hts =>
    have hstop : ∀ c ∈ ((ts.map (':' :: ·)).flatten ++ rest).head?, hexVal c = none := by
      cases ts with
      | nil => simpa using hr
      | cons s ts => intro c hc; simp at hc; subst hc; rfl
    obtain ⟨r, hr1, a, rfl, ha⟩ := f2n_get_spec hc hm hm0 ht hstop
    obtain ⟨z, hz, _⟩ := F2Mod.mk'_ok (r := F2P.ofInt 0) (Canon.good canon_zero) hc hm hm0
    have hrd : rd b.coeffs 0 = ok c0 := by unfold rd; rw [hb]
    unfold f2nExtract
    rw [hrd, ok_bind, hb', hz, ok_bind, intercalate_cons, List.append_assoc, hr1, ok_bind]
    dsimp only
    have key := colonLoop_sat (F2Mod.cops_ref hm0).toCmp (one := f2nGet mm) (Stop := fun l => ∀ c ∈ l.head?, hexVal c = none)
      (fun t c hc => by simp at hc; subst hc; rfl) (Reads := F2Word m)
      (fun t x h tail hs => (f2n_get_spec hc hm hm0 h hs).sat) (guard := guard) hr hr' hts
      ((t ++ ((ts.map (':' :: ·)).flatten ++ rest)).length + 1) ⟨0, [a]⟩ (C x) (by
        have : ∀ l : List (List Char), l.length ≤ (l.map (':' :: ·)).flatten.length := by
          intro l
          induction l with
          | nil => simp
          | cons s l ih => simp at ih ⊢; omega
        have := this ts
        simp only [List.length_append]; omega) (loose_const ha)
    have e : xs.foldl (fun f c => f * X + C c) (C x) = horner (x :: xs) := by simp [horner]
    rw [e] at key
    exact sat_false.1 key

example : f2nExtract true ⟨0, [⟨[0], [7]⟩]⟩ " 2: 1;".toList = ok (⟨1, [⟨[1], [7]⟩, ⟨[2], [7]⟩]⟩, ⟨[';'], false, false⟩) ∧
    f2nExtract false ⟨0, [⟨[0], [7]⟩]⟩ "2:1".toList = ok (⟨1, [⟨[1], [7]⟩, ⟨[2], [7]⟩]⟩, ⟨[], true, true⟩) := by decide +kernel

/-- C93 (violated): a polynomial that ends a general stream is read, but the failure bit is set. -/
theorem C93_violated_f2n_stream_end (hc : Canon mm) (hm : toPoly mm = m) (hm0 : m ≠ 0) {b : CPoly F2Mod} {c0 : F2Mod}
    (hb : b.coeffs[0]? = some c0) (hb' : c0.modulus = mm) {ts : List (List Char)} {xs : List (AdjoinRoot m)} (hne : ts ≠ [])
    (hts : List.Forall₂ (F2Word m) ts xs) : (f2nExtract false b (List.intercalate [':'] ts)).Ok fun r =>
      PRep (F2Mod.Rep m) r.1 (horner xs) ∧ r.2.fail = true := by
  have := C93_f2n_stream false hc hm hm0 hb hb' hne hts (rest := []) (by simp) (by simp)
  rw [List.append_nil] at this
  exact this.mono fun r hr => ⟨hr.1, by rw [hr.2]; rfl⟩

/-- C93: printed, then read from a string stream. -/
theorem C93_f2n_stream_round_trip (hc : Canon mm) (hm : toPoly mm = m) (hm0 : m ≠ 0) {a b : CPoly F2Mod} {f : (AdjoinRoot m)[X]}
    (ha : PRep (F2Mod.Rep m) a f) {c0 : F2Mod} (hb : b.coeffs[0]? = some c0) (hb' : c0.modulus = mm) {rest : List Char}
    (hr : ∀ c ∈ rest.head?, hexVal c = none) (hr' : rest.head? ≠ some ':') : ∃ t, f2nShow a = ok t ∧
      (f2nExtract true b (t ++ rest)).Ok fun r => PRep (F2Mod.Rep m) r.1 f ∧ r.2 = ⟨rest, rest.isEmpty, false⟩ := by
  obtain ⟨q, hq, hs⟩ := C93_f2n_print ha
  refine ⟨_, hs, ?_⟩
  rw [f2n_sep rfl]
  have := C93_f2n_stream true hc hm hm0 hb hb' (ts := (List.range (f.natDegree + 1)).reverse.map fun i => hexOf (nval (q i)))
    (xs := (List.range (f.natDegree + 1)).reverse.map f.coeff) (by simp)
    (forall₂_range fun i hi => by rw [← (hq i hi).2]; exact hexOf_word _) hr hr'
  rw [horner_coeffs f (by omega)] at this
  simpa using this

end F2

end PText93
end Spffl.Props
