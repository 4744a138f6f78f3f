import Verif.Props.PolyText2

/-!
# C93: polynomials over F_p^n, and residues, as text
-/

namespace Spffl.Props
namespace PText93
open Res Spffl.Scan Spffl.PText Polynomial CPoly Cyclo

/-! ### fpn_poly_t -/

section Fpn
variable {p : ℕ} [hp : Fact p.Prime] {M : (ZMod p)[X]} {mm : CPoly IntMod}

/-- Blanks, then a polynomial over F_p that represents `x`. -/
def FpnWord (M : (ZMod p)[X]) (w : List Char) (x : AdjoinRoot M) : Prop :=
  ∃ ws t f, w = ws ++ t ∧ (∀ c ∈ ws, blank c = true) ∧ FpText p t f ∧ x = AdjoinRoot.mk M f

/-- The text starts so, and neither a digit nor a comma follows. -/
def FpnReads (M : (ZMod p)[X]) (t : List Char) (x : AdjoinRoot M) : Prop :=
  ∃ w tail, t = w ++ tail ∧ FpnWord M w x ∧ ∀ c ∈ tail.head?, fpChar c = false

theorem fpn_get (hb : p ≤ 46341) (hm : PRep (IntMod.Rep p) mm M) (hM : M ≠ 0) {w : List Char} {x : AdjoinRoot M}
    (h : FpnWord M w x) {tail : List Char} (ht : ∀ c ∈ tail.head?, fpChar c = false) :
    ∃ r a, fpExtract mm (w ++ tail) = ok (.val r, ⟨tail, tail.isEmpty, false⟩) ∧ CMod.mk' IntMod.cops r mm = ok a ∧
      CMod.Rep (IntMod.Rep p) M a x := by
  obtain ⟨ws, t, f, rfl, hw, hf, rfl⟩ := h
  obtain ⟨_, h1, r, rfl, h2⟩ := denotes_ok hp.out.pos (by omega) hf.2.2
  obtain ⟨c0, hc0, hc0'⟩ := hm.c0
  obtain ⟨a, h3, h4⟩ := sat_false.1 (CMod.mk'_sat (IntMod.cops_ref hp.out.two_le hb) h2 hm hM)
  exact ⟨r, a, C93_fp_stream hc0 hw hf.1 (fpText_char hf) ht (by rw [hc0'.1]; exact h1), h3, h4⟩

theorem fpn_one_yes (hb : p ≤ 46341) (hm : PRep (IntMod.Rep p) mm M) (hM : M ≠ 0) {t : List Char} {x : AdjoinRoot M}
    (h : FpnReads M t x) : (fpnOne mm t).Ok fun o => ∃ a, o = some a ∧ CMod.Rep (IntMod.Rep p) M a x := by
  obtain ⟨w, tail, rfl, hw, ht⟩ := h
  obtain ⟨r, a, h1, h2, h3⟩ := fpn_get hb hm hM hw ht
  unfold fpnOne
  rw [h1, ok_bind]
  simp only [Bool.false_eq_true, if_false]
  rw [h2, ok_bind]
  exact ⟨_, rfl, a, rfl, h3⟩

/-- A coefficient that is refused: after the blanks comes neither a digit nor a comma, or one of the numbers between the
commas is no `int`. -/
def FpnBad (p : ℕ) (t : List Char) : Prop :=
  ∃ ws u rest, t = ws ++ u ++ rest ∧ (∀ c ∈ ws, blank c = true) ∧ (∀ c ∈ u, fpChar c = true) ∧
    (∀ c ∈ rest.head?, fpChar c = false) ∧
    ((u = [] ∧ ∀ c ∈ rest.head?, blank c = false) ∨
     ((',' ∈ u ∨ 10 ≤ p) ∧ ∃ s ∈ (u.splitOnP (· == ',')).filter (· ≠ []), ∀ n tail, IntText s n tail → ¬ InInt n))

theorem fpn_one_no (hb : p ≤ 46341) (hm : PRep (IntMod.Rep p) mm M) {t : List Char} (h : FpnBad p t) :
    fpnOne mm t = ok none := by
  obtain ⟨ws, u, rest, rfl, hw, hu, hr, (⟨rfl, hr'⟩ | ⟨h1, h2⟩)⟩ := h
  · obtain ⟨c0, hc0, _⟩ := hm.c0
    have hne : mm.coeffs ≠ [] := by rintro h; rw [h] at hc0; cases hc0
    unfold fpnOne
    rw [List.append_nil, C93_fp_stream_refused hne hw fun c hc => ⟨hr c hc, hr' c hc⟩]
    rfl
  · obtain ⟨c0, hc0, hc0'⟩ := hm.c0
    obtain ⟨_, h3, b, rfl⟩ := (C93_fp_list hp.out.pos (by omega) h1 rfl).2 h2
    have hune : u ≠ [] := by
      rintro rfl
      obtain ⟨s, hs, _⟩ := h2
      simp at hs
    unfold fpnOne
    rw [C93_fp_stream hc0 hw hune hu hr (r := .refused b) (by rw [hc0'.1]; exact h3)]
    rfl

theorem fpn_one_ub {ws u rest : List Char} (hm : PRep (IntMod.Rep p) mm M) (hw : ∀ c ∈ ws, blank c = true) (hu : u ≠ [])
    (hc : ∀ c ∈ u, c = ',') (hr : ∀ c ∈ rest.head?, fpChar c = false) : fpnOne mm (ws ++ u ++ rest) = ub := by
  obtain ⟨c0, hc0, _⟩ := hm.c0
  have hd := C93_violated_fp_dangling (p := p) (Or.inl hu) hc
  unfold fpnOne
  rw [C93_fp_stream hc0 hw hu (fun c h => by rw [hc c h]; rfl) hr (r := .dangling) (by
    obtain ⟨c0', h1, h2⟩ := hm.c0
    rw [hc0] at h1
    cases h1
    rw [h2.1]; exact hd)]
  rfl

/-- C93: the coefficients are the non-empty stretches between colons, the highest first.  The text is refused at the first
coefficient that is; a coefficient of commas only is undefined behaviour, and without any coefficient the object is left
pointing to deleted memory (violated). -/
theorem C93_fpn_from_string (hb : p ≤ 46341) (hm : PRep (IntMod.Rep p) mm M) (hM : M ≠ 0) {cs : List Char}
    {ts : List (List Char)} (hts : (cs.splitOnP (· == ':')).filter (· ≠ []) = ts) :
    (∀ xs, ts ≠ [] → List.Forall₂ (FpnReads M) ts xs → (fpnFromString mm cs).Ok fun r =>
      ∃ b, r = .val b ∧ PRep (CMod.Rep (IntMod.Rep p) M) b (horner xs)) ∧
    (∀ as t bs xs, ts = as ++ t :: bs → List.Forall₂ (FpnReads M) as xs →
      (FpnBad p t → (fpnFromString mm cs).Ok fun r => ∃ b, r = .refused b) ∧
      (∀ ws u rest, t = ws ++ u ++ rest → (∀ c ∈ ws, blank c = true) → u ≠ [] → (∀ c ∈ u, c = ',') →
        (∀ c ∈ rest.head?, fpChar c = false) → fpnFromString mm cs = ub)) ∧
    (ts = [] → fpnFromString mm cs = ok .dangling) := by
  have e : fpnFromString mm cs = fromTokens FpMod.cops (fpnOne mm) ts := by unfold fpnFromString tokens; rw [hts]
  rw [e]
  have hyes : ∀ t (x : AdjoinRoot M), FpnReads M t x → (fpnOne mm t).Ok fun o => ∃ a, o = some a ∧ CMod.Rep (IntMod.Rep p) M a x :=
    fun t x h => fpn_one_yes hb hm hM h
  refine ⟨fun xs hne hx => ?_, fun as t bs xs hts has => ⟨fun h => ?_, fun ws u rest ht hw hu hc hr => ?_⟩, fun h => by rw [h]; rfl⟩
  · exact sat_false.1 (fromTokens_yes (fpn_cmp hb hM) (fun t x h => (hyes t x h).sat) hx hne)
  · rw [hts]
    exact (fromTokens_stop hyes has _).1 (fpn_one_no hb hm h)
  · rw [hts]
    exact (fromTokens_stop hyes has _).2 (by rw [ht]; exact fpn_one_ub hm hw hu hc hr)

example : fpnFromString ⟨2, [⟨1, 3⟩, ⟨0, 3⟩, ⟨1, 3⟩]⟩ "12:100".toList = ok (.val ⟨1,
    [⟨⟨0, [⟨2, 3⟩, ⟨0, 3⟩, ⟨0, 3⟩]⟩, ⟨2, [⟨1, 3⟩, ⟨0, 3⟩, ⟨1, 3⟩]⟩⟩, ⟨⟨1, [⟨2, 3⟩, ⟨1, 3⟩]⟩, ⟨2, [⟨1, 3⟩, ⟨0, 3⟩, ⟨1, 3⟩]⟩⟩]⟩) ∧
    fpnFromString ⟨2, [⟨1, 3⟩, ⟨0, 3⟩, ⟨1, 3⟩]⟩ "12:,:1".toList = ub := by decide +kernel

/-- The text of a polynomial over F_p, with `n` coefficients. -/
noncomputable def fpOut {p : ℕ} (f : (ZMod p)[X]) : List Char :=
  List.intercalate (if 9 < p then [','] else []) ((List.range (f.natDegree + 1)).reverse.map fun i => showInt ((f.coeff i).val : Int))

/-- C93: what is printed: the representatives of least degree, as polynomials over F_p, with colons. -/
theorem C93_fpn_print {a : CPoly (CMod IntMod)} {f : (AdjoinRoot M)[X]} (ha : PRep (CMod.Rep (IntMod.Rep p) M) a f) :
    ∃ q : ℕ → (ZMod p)[X], (∀ i, i < f.natDegree + 1 → (q i).degree < M.degree ∧ AdjoinRoot.mk M (q i) = f.coeff i) ∧
      fpnShow a = ok (List.intercalate [':'] ((List.range (f.natDegree + 1)).reverse.map fun i => fpOut (q i))) := by
  have hget : ∀ i, ∃ q : (ZMod p)[X], i < a.degree + 1 → (∃ c, get_coeff FpMod.cops a i = ok c ∧ PRep (IntMod.Rep p) c.residue q) ∧
      q.degree < M.degree ∧ AdjoinRoot.mk M q = f.coeff i := by
    intro i
    by_cases h : i < a.degree + 1
    · have : (get_coeff FpMod.cops a i).Ok fun c => CMod.Rep (IntMod.Rep p) M c (f.coeff i) := by
        unfold get_coeff
        rw [if_neg (by omega), if_neg (by omega), Int.toNat_natCast]
        exact sat_false.1 (rd_sat (ha.co i h))
      obtain ⟨c, h1, h2⟩ := this
      obtain ⟨q, hq1, hq2, hq3⟩ := h2.hr
      exact ⟨q, fun _ => ⟨⟨c, h1, hq1⟩, hq2, hq3⟩⟩
    · exact ⟨0, fun h' => absurd h' h⟩
  choose q hq using hget
  refine ⟨q, fun i hi => (hq i (by rw [← ha.deg]; exact hi)).2, ?_⟩
  unfold fpnShow
  have hd := down_ok (f := fun i => (get_coeff FpMod.cops a i >>= fun c => fpShow c.residue))
    (g := fun i => fpOut (q i)) (n := a.degree + 1) (fun i hi => by
      obtain ⟨c, h1, h2⟩ := (hq i hi).1
      rw [h1, ok_bind, C93_fp_print hp.out.pos h2]
      rfl)
  rw [hd, ok_bind, ha.deg]

theorem fpOut_text (hb : p ≤ 1073741824) (f : (ZMod p)[X]) : FpText p (fpOut f) f :=
  fp_text hp.out.pos hb f (Nat.lt_succ_self _) rfl

theorem fpOut_word (hb : p ≤ 1073741824) (f : (ZMod p)[X]) : FpnWord M (fpOut f) (AdjoinRoot.mk M f) :=
  ⟨[], _, f, rfl, by simp, fpOut_text hb f, rfl⟩

theorem fpOut_colon (hb : p ≤ 1073741824) (f : (ZMod p)[X]) : ':' ∉ fpOut f := fun h => by
  rcases (fpOut_text hb f).2.1 _ h with h | h <;> revert h <;> decide

/-- Printed coefficients, with colons, are read back. -/
theorem fpn_text (hb : p ≤ 46341) (hm : PRep (IntMod.Rep p) mm M) (hM : M ≠ 0) {f : (AdjoinRoot M)[X]} {n : ℕ}
    (hn : f.natDegree < n) {g : ℕ → List Char} (hg : ∀ i, i < n → ∃ q, AdjoinRoot.mk M q = f.coeff i ∧ g i = fpOut q) :
    (fpnFromString mm (List.intercalate [':'] ((List.range n).reverse.map g))).Ok fun r =>
      ∃ b, r = .val b ∧ PRep (CMod.Rep (IntMod.Rep p) M) b f := by
  have htok := tokens_intercalate (sep := ':') (ts := (List.range n).reverse.map g)
    (fun t ht => by
      obtain ⟨i, hi, rfl⟩ := List.mem_map.1 ht
      obtain ⟨q, -, hq⟩ := hg i (by simpa using hi)
      rw [hq]; exact fpOut_colon (by omega) _)
    (fun t ht => by
      obtain ⟨i, hi, rfl⟩ := List.mem_map.1 ht
      obtain ⟨q, -, hq⟩ := hg i (by simpa using hi)
      rw [hq]; exact (fpOut_text (by omega) _).1)
  have := (C93_fpn_from_string hb hm hM htok).1 ((List.range n).reverse.map f.coeff) (by simp; omega)
    (forall₂_range fun i hi => by
      obtain ⟨q, hq1, hq⟩ := hg i hi
      rw [← hq1, hq]
      exact ⟨_, [], by simp, fpOut_word (by omega) _, by simp⟩)
  rwa [horner_coeffs f hn] at this

/-- C93: what is printed of a polynomial over F_p[x]/(M) is read back as the same polynomial. -/
theorem C93_fpn_round_trip (hb : p ≤ 46341) (hm : PRep (IntMod.Rep p) mm M) (hM : M ≠ 0) {a : CPoly (CMod IntMod)}
    {f : (AdjoinRoot M)[X]} (ha : PRep (CMod.Rep (IntMod.Rep p) M) a f) : ∃ t, fpnShow a = ok t ∧
      (fpnFromString mm t).Ok fun r => ∃ b, r = .val b ∧ PRep (CMod.Rep (IntMod.Rep p) M) b f := by
  obtain ⟨q, hq, hs⟩ := C93_fpn_print ha
  exact ⟨_, hs, fpn_text hb hm hM (Nat.lt_succ_self _) fun i hi => ⟨q i, (hq i hi).2, rfl⟩⟩

/-! #### Streams -/

theorem fpn_get_spec (hb : p ≤ 46341) (hm : PRep (IntMod.Rep p) mm M) (hM : M ≠ 0) {t : List Char} {x : AdjoinRoot M}
    (h : FpnWord M t x) {tail : List Char} (ht : ∀ c ∈ tail.head?, fpChar c = false) : (fpnGet mm (t ++ tail)).Ok fun r =>
      ∃ a, r = (some a, ⟨tail, tail.isEmpty, false⟩) ∧ CMod.Rep (IntMod.Rep p) M a x := by
  obtain ⟨r, a, h1, h2, h3⟩ := fpn_get hb hm hM h ht
  unfold fpnGet
  rw [h1, ok_bind]
  simp only [Bool.false_eq_true, if_false]
  rw [h2, ok_bind]
  exact ⟨_, rfl, a, rfl, h3⟩

/-- C93: `operator>>` reads coefficients separated by single colons, the highest first, blanks before each being skipped,
and stops where no colon follows. -/
theorem C93_fpn_stream (hb : p ≤ 46341) (hM : M ≠ 0) {b : CPoly (CMod IntMod)} {g : (AdjoinRoot M)[X]}
    (hg : PRep (CMod.Rep (IntMod.Rep p) M) b g) {ts : List (List Char)} {xs : List (AdjoinRoot M)} (hne : ts ≠ [])
    (hts : List.Forall₂ (FpnWord M) ts xs) {rest : List Char} (hr : ∀ c ∈ rest.head?, fpChar c = false)
    (hr' : rest.head? ≠ some ':') : (fpnExtract b (List.intercalate [':'] ts ++ rest)).Ok fun r =>
      PRep (CMod.Rep (IntMod.Rep p) M) r.1 (horner xs) ∧ r.2 = ⟨rest, rest.isEmpty, false⟩ := by
  obtain ⟨c0, hc0, hc0'⟩ := hg.c0
  have hm := hc0'.hm
  cases hts with
  | nil => exact absurd rfl hne
  | @cons t x ts xs ht hts =>
    have hstop : ∀ c ∈ ((ts.map (':' :: ·)).flatten ++ rest).head?, fpChar c = false := by
      cases ts with
      | nil => simpa using hr
      | cons s ts => intro c hc; simp at hc; subst hc; rfl
    obtain ⟨r, hr1, a, rfl, ha⟩ := fpn_get_spec hb hm hM ht hstop
    obtain ⟨z, hz, _⟩ := sat_false.1 ((fpn_cmp hb hM).psub0 hc0')
    have hrd : rd b.coeffs 0 = ok c0 := by unfold rd; rw [hc0]
    unfold fpnExtract
    rw [hrd, ok_bind, hz, ok_bind, intercalate_cons, List.append_assoc, hr1, ok_bind]
    dsimp only
    have key := colonLoop_sat (fpn_cmp hb hM) (one := fpnGet c0.modulus) (Stop := fun l => ∀ c ∈ l.head?, fpChar c = false)
      (fun t c hc => by simp at hc; subst hc; rfl) (Reads := FpnWord M)
      (fun t x h tail hs => (fpn_get_spec hb hm hM h hs).sat) (guard := true) hr hr' hts
      ((t ++ ((ts.map (':' :: ·)).flatten ++ rest)).length + 1) ⟨0, [a]⟩ (C x) (by
        have : ∀ l : List (List Char), l.length ≤ (l.map (':' :: ·)).flatten.length := by
          intro l
          induction l with
          | nil => simp
          | cons s l ih => simp at ih ⊢; omega
        have := this ts
        simp only [List.length_append]; omega) (loose_const ha)
    have e : xs.foldl (fun f c => f * X + C c) (C x) = horner (x :: xs) := by simp [horner]
    rw [e] at key
    simpa using sat_false.1 key

/-- C93: printed, then read from a string stream. -/
theorem C93_fpn_stream_round_trip (hb : p ≤ 46341) (hM : M ≠ 0) {a b : CPoly (CMod IntMod)} {f g : (AdjoinRoot M)[X]}
    (ha : PRep (CMod.Rep (IntMod.Rep p) M) a f) (hg : PRep (CMod.Rep (IntMod.Rep p) M) b g) {rest : List Char}
    (hr : ∀ c ∈ rest.head?, fpChar c = false) (hr' : rest.head? ≠ some ':') : ∃ t, fpnShow a = ok t ∧
      (fpnExtract b (t ++ rest)).Ok fun r => PRep (CMod.Rep (IntMod.Rep p) M) r.1 f ∧ r.2 = ⟨rest, rest.isEmpty, false⟩ := by
  obtain ⟨q, hq, hs⟩ := C93_fpn_print ha
  refine ⟨_, hs, ?_⟩
  have := C93_fpn_stream hb hM hg (ts := (List.range (f.natDegree + 1)).reverse.map fun i => fpOut (q i))
    (xs := (List.range (f.natDegree + 1)).reverse.map f.coeff) (by simp)
    (forall₂_range fun i hi => by rw [← (hq i hi).2]; exact fpOut_word (by omega) _) hr hr'
  rwa [horner_coeffs f (by omega)] at this

example : fpnExtract ⟨0, [⟨⟨0, [⟨0, 3⟩]⟩, ⟨1, [⟨0, 3⟩, ⟨1, 3⟩]⟩⟩]⟩ " 2:10: 4;".toList = ok (⟨2,
    [⟨⟨0, [⟨1, 3⟩]⟩, ⟨1, [⟨0, 3⟩, ⟨1, 3⟩]⟩⟩, ⟨⟨0, [⟨0, 3⟩, ⟨0, 3⟩]⟩, ⟨1, [⟨0, 3⟩, ⟨1, 3⟩]⟩⟩, ⟨⟨0, [⟨2, 3⟩]⟩, ⟨1, [⟨0, 3⟩, ⟨1, 3⟩]⟩⟩]⟩,
    ⟨[';'], false, false⟩) := by decide +kernel

end Fpn

/-! ### Residues -/

section Res
variable {α K : Type} [Field K] {O : CoefOps α} {rep : α → K → Prop} {M : K[X]}

/-- A residue is printed with as many coefficients as the modulus has below the highest, at least one. -/
theorem modTexts_ok {T : K → List Char → Prop} {sh : α → Res (List Char)} (hsh : ∀ c x, rep c x → ∃ t, sh c = ok t ∧ T x t)
    (h0 : T 0 ['0']) {a : CMod α} {x : AdjoinRoot M} (ha : CMod.Rep rep M a x) : ∃ (f : K[X]) (g : ℕ → List Char),
    f.degree < M.degree ∧ AdjoinRoot.mk M f = x ∧ f.natDegree < max 1 M.natDegree ∧ (∀ i, T (f.coeff i) (g i)) ∧
    modTexts O sh a = ok ((List.range (max 1 M.natDegree)).reverse.map g) := by
  obtain ⟨f, hf, hd, hx⟩ := ha.hr
  have hget : ∀ i, ∃ t, T (f.coeff i) t ∧ (if a.residue.degree < i then ok ['0'] else do
      let c ← CPoly.get_coeff O a.residue i
      sh c) = ok t := by
    intro i
    by_cases h : a.residue.degree < i
    · refine ⟨['0'], ?_, if_pos h⟩
      rw [coeff_eq_zero_of_natDegree_lt (by rw [hf.deg]; exact h)]
      exact h0
    · have : (get_coeff O a.residue i).Ok fun c => rep c (f.coeff i) := by
        unfold get_coeff
        rw [if_neg (by omega), if_neg (by omega), Int.toNat_natCast]
        exact sat_false.1 (rd_sat (hf.co i (by omega)))
      obtain ⟨c, h1, h2⟩ := this
      obtain ⟨t, h3, h4⟩ := hsh c _ h2
      exact ⟨t, h4, by rw [if_neg h, h1, ok_bind, h3]⟩
  choose g hg using hget
  have hM : M ≠ 0 := ha.m_ne
  have hn : f.natDegree = 0 ∨ f.natDegree < M.natDegree := by
    by_cases h : f = 0
    · left; rw [h, natDegree_zero]
    · right; exact natDegree_lt_natDegree h hd
  have hdeg : max a.residue.degree (a.modulus.degree - 1) + 1 = max 1 M.natDegree := by
    rw [← hf.deg, ← ha.hm.deg]; omega
  refine ⟨f, g, hd, hx, by omega, fun i => (hg i).1, ?_⟩
  unfold modTexts
  rw [hdeg]
  exact down_ok fun i _ => (hg i).2

theorem modFinish_ok (H : ∀ r f, PRep rep r f → ∀ m, PRep rep m M → (CMod.mk' O r m).Ok fun a => CMod.Rep rep M a (AdjoinRoot.mk M f))
    {m : CPoly α} (hm : PRep rep m M) {r : Parsed α} {f : K[X]} (hr : ∃ b, r = .val b ∧ PRep rep b f) :
    (modFinish O m r).Ok fun o => ∃ a, o = some a ∧ CMod.Rep rep M a (AdjoinRoot.mk M f) := by
  obtain ⟨b, rfl, hb⟩ := hr
  unfold modFinish
  exact (H b f hb m hm).bind fun a ha => ⟨_, rfl, a, rfl, ha⟩

end Res

/-! #### fp_polymod_t -/

section FpM
variable {p : ℕ} [hp : Fact p.Prime] {M : (ZMod p)[X]} {mm : CPoly IntMod}

theorem fpm_mk (hb : p ≤ 46341) (hM : M ≠ 0) (r : CPoly IntMod) (f : (ZMod p)[X]) (hr : PRep (IntMod.Rep p) r f) (m : CPoly IntMod)
    (hm : PRep (IntMod.Rep p) m M) : (CMod.mk' IntMod.cops r m).Ok fun a => CMod.Rep (IntMod.Rep p) M a (AdjoinRoot.mk M f) :=
  sat_false.1 (CMod.mk'_sat (IntMod.cops_ref hp.out.two_le hb) hr hm hM)

/-- C93: `fp_polymod_t::from_string` makes the class of the polynomial that the text denotes; commas alone are undefined
behaviour (violated). -/
theorem C93_fpmod_from_string (hb : p ≤ 46341) (hm : PRep (IntMod.Rep p) mm M) (hM : M ≠ 0) (t : List Char) :
    (∀ f, FpDenotes p t f → (fpModFromString mm t).Ok fun o =>
      ∃ a, o = some a ∧ CMod.Rep (IntMod.Rep p) M a (AdjoinRoot.mk M f)) ∧
    ((',' ∈ t ∨ 10 ≤ p) → (∃ s ∈ (t.splitOnP (· == ',')).filter (· ≠ []), ∀ n tail, IntText s n tail → ¬ InInt n) →
      fpModFromString mm t = ok none) ∧
    (',' ∉ t → p < 10 → (∃ c ∈ t, isDig c = false) → fpModFromString mm t = ok none) ∧
    ((∀ c ∈ t, c = ',') → fpModFromString mm t = ub) := by
  obtain ⟨c0, hc0, hc0'⟩ := hm.c0
  have e : fpModFromString mm t = (fpFromString p t >>= modFinish IntMod.cops mm) := by
    unfold fpModFromString
    have : rd mm.coeffs 0 = ok c0 := by unfold rd; rw [hc0]
    rw [this, ok_bind, hc0'.1]
  rw [e]
  refine ⟨fun f h => ?_, fun h1 h2 => ?_, fun h1 h2 h3 => ?_, fun h => ?_⟩
  · refine (denotes_ok hp.out.pos (by omega) h).bind fun r hr => ?_
    exact modFinish_ok (fpm_mk hb hM) hm hr
  · obtain ⟨_, h3, b, rfl⟩ := (C93_fp_list hp.out.pos (by omega) h1 rfl).2 h2
    rw [h3]; rfl
  · obtain ⟨_, h3, b, rfl⟩ := (C93_fp_digits hp.out.pos h2 h1).2.1 h3
    rw [h3]; rfl
  · by_cases hne : t ≠ [] ∨ 10 ≤ p
    · rw [C93_violated_fp_dangling hne h]; rfl
    · push Not at hne
      rw [(C93_fp_digits hp.out.pos hne.2 (by simp [hne.1])).2.2 hne.1]; rfl

/-- C93: printed with as many coefficients as residues can have, and read back as the same residue. -/
theorem C93_fpmod_round_trip (hb : p ≤ 46341) {a : CMod IntMod} {x : AdjoinRoot M} (ha : CMod.Rep (IntMod.Rep p) M a x) :
    ∃ (f : (ZMod p)[X]) (t : List Char), f.degree < M.degree ∧ AdjoinRoot.mk M f = x ∧
      t = List.intercalate (if 9 < p then [','] else [])
        ((List.range (max 1 M.natDegree)).reverse.map fun i => showInt ((f.coeff i).val : Int)) ∧
      fpModShow a = ok t ∧
      ((fpModFromString a.modulus t).Ok fun o => ∃ b, o = some b ∧ CMod.Rep (IntMod.Rep p) M b x) ∧
      ∀ (b : CMod IntMod) (y : AdjoinRoot M) (ws rest : List Char), CMod.Rep (IntMod.Rep p) M b y → (∀ c ∈ ws, blank c = true) →
        (∀ c ∈ rest.head?, fpChar c = false) → (fpModExtract b (ws ++ t ++ rest)).Ok fun r =>
          CMod.Rep (IntMod.Rep p) M r.1 x ∧ r.2 = ⟨rest, rest.isEmpty, false⟩ := by
  have hM : M ≠ 0 := ha.m_ne
  obtain ⟨f, g, h1, h2, h3, h4, h5⟩ := modTexts_ok (O := IntMod.cops) (sh := fun c => ok (showInt c.residue)) (T := fun (x : ZMod p) t => t = showInt (x.val : Int))
    (fun c x hc => ⟨_, rfl, by rw [residue_val hc]⟩) (by simp [showInt, showNat]) ha
  have hg : g = fun i => showInt ((f.coeff i).val : Int) := funext h4
  subst hg
  obtain ⟨f', hf', _⟩ := ha.hr
  obtain ⟨c0, hc0, hc0'⟩ := hf'.c0
  have htext := fp_text hp.out.pos (by omega) f h3 rfl
  refine ⟨f, _, h1, h2, rfl, ?_, ?_, ?_⟩
  · unfold fpModShow
    have : get_coeff IntMod.cops a.residue 0 = ok c0 := by
      unfold get_coeff rd
      simp [hc0]
    rw [this, ok_bind, h5, ok_bind, hc0'.1]
    norm_cast
  · rw [← h2]
    exact (C93_fpmod_from_string hb ha.hm hM _).1 f htext.2.2
  · intro b y ws rest hb' hw hr
    obtain ⟨g', hg', _⟩ := hb'.hr
    obtain ⟨d0, hd0, hd0'⟩ := hg'.c0
    obtain ⟨_, h6, r, rfl, h7⟩ := denotes_ok hp.out.pos (by omega) htext.2.2
    unfold fpModExtract
    rw [C93_fp_stream hd0 hw htext.1 (fpText_char htext) hr (r := .val r) (by rw [hd0'.1]; exact h6), ok_bind]
    refine (fpm_mk hb hM r f h7 _ hb'.hm).bind fun c hc => ?_
    rw [h2] at hc
    exact ⟨_, rfl, hc, rfl⟩

example : fpModShow ⟨⟨0, [⟨2, 3⟩]⟩, ⟨3, [⟨1, 3⟩, ⟨2, 3⟩, ⟨0, 3⟩, ⟨1, 3⟩]⟩⟩ = ok "002".toList ∧
    fpModFromString ⟨3, [⟨1, 3⟩, ⟨2, 3⟩, ⟨0, 3⟩, ⟨1, 3⟩]⟩ "002".toList =
      ok (some ⟨⟨0, [⟨2, 3⟩]⟩, ⟨3, [⟨1, 3⟩, ⟨2, 3⟩, ⟨0, 3⟩, ⟨1, 3⟩]⟩⟩) := by decide +kernel

/-! #### fpn_polymod_t -/

variable [hM : Fact (Irreducible M)] {N : (AdjoinRoot M)[X]}

theorem fpnm_mk (hb : p ≤ 46341) (hN : N ≠ 0) (r : CPoly (CMod IntMod)) (f : (AdjoinRoot M)[X])
    (hr : PRep (CMod.Rep (IntMod.Rep p) M) r f) (m : CPoly (CMod IntMod)) (hm : PRep (CMod.Rep (IntMod.Rep p) M) m N) :
    (CMod.mk' FpMod.cops r m).Ok fun a => CMod.Rep (CMod.Rep (IntMod.Rep p) M) N a (AdjoinRoot.mk N f) := by
  have := CMod.mk'_sat (FpMod.copsNeg_ref hb hM.out.ne_zero) hr hm hN
  unfold FpMod.copsNeg at this
  rw [CMod.mk'_swap] at this
  exact sat_false.1 this

/-- C93: `fpn_polymod_t::from_string` makes the class of the polynomial read; colons alone are undefined behaviour
(violated). -/
theorem C93_fpnmod_from_string (hb : p ≤ 46341) {nn : CPoly (CMod IntMod)} (hn : PRep (CMod.Rep (IntMod.Rep p) M) nn N) (hN : N ≠ 0)
    {t : List Char} {ts : List (List Char)} (hts : (t.splitOnP (· == ':')).filter (· ≠ []) = ts) :
    (∀ xs, ts ≠ [] → List.Forall₂ (FpnReads M) ts xs → (fpnModFromString nn t).Ok fun o =>
      ∃ a, o = some a ∧ CMod.Rep (CMod.Rep (IntMod.Rep p) M) N a (AdjoinRoot.mk N (horner xs))) ∧
    (∀ as s bs xs, ts = as ++ s :: bs → List.Forall₂ (FpnReads M) as xs → FpnBad p s → fpnModFromString nn t = ok none) ∧
    (ts = [] → fpnModFromString nn t = ub) := by
  obtain ⟨c0, hc0, hc0'⟩ := hn.c0
  have e : fpnModFromString nn t = (fpnFromString c0.modulus t >>= modFinish FpMod.cops nn) := by
    unfold fpnModFromString
    have : get_coeff FpMod.cops nn 0 = ok c0 := by
      unfold get_coeff rd
      simp [hc0]
    rw [this, ok_bind]
  rw [e]
  have key := C93_fpn_from_string hb hc0'.hm hM.out.ne_zero hts
  refine ⟨fun xs h1 h2 => ?_, fun as s bs xs h1 h2 h3 => ?_, fun h => by rw [key.2.2 h]; rfl⟩
  · exact (key.1 xs h1 h2).bind fun r hr => modFinish_ok (fpnm_mk hb hN) hn hr
  · obtain ⟨_, h4, b, rfl⟩ := (key.2.1 as s bs xs h1 h2).1 h3
    rw [h4]; rfl

/-- C93: printed with as many coefficients as residues can have, and read back as the same residue. -/
theorem C93_fpnmod_round_trip (hb : p ≤ 46341) {a : CMod (CMod IntMod)} {x : AdjoinRoot N}
    (ha : CMod.Rep (CMod.Rep (IntMod.Rep p) M) N a x) :
    ∃ (f : (AdjoinRoot M)[X]) (q : ℕ → (ZMod p)[X]) (t : List Char), f.degree < N.degree ∧ AdjoinRoot.mk N f = x ∧
      (∀ i, (q i).degree < M.degree ∧ AdjoinRoot.mk M (q i) = f.coeff i) ∧
      t = List.intercalate [':'] ((List.range (max 1 N.natDegree)).reverse.map fun i => fpOut (q i)) ∧
      fpnModShow a = ok t ∧
      ((fpnModFromString a.modulus t).Ok fun o => ∃ b, o = some b ∧ CMod.Rep (CMod.Rep (IntMod.Rep p) M) N b x) ∧
      ∀ (b : CMod (CMod IntMod)) (y : AdjoinRoot N) (rest : List Char), CMod.Rep (CMod.Rep (IntMod.Rep p) M) N b y →
        (∀ c ∈ rest.head?, fpChar c = false) → rest.head? ≠ some ':' → (fpnModExtract b (t ++ rest)).Ok fun r =>
          CMod.Rep (CMod.Rep (IntMod.Rep p) M) N r.1 x ∧ r.2 = ⟨rest, rest.isEmpty, false⟩ := by
  have hN : N ≠ 0 := ha.m_ne
  have hM0 : M ≠ 0 := hM.out.ne_zero
  obtain ⟨f, g, h1, h2, h3, h4, h5⟩ := modTexts_ok (O := FpMod.cops) (sh := fun c => fpShow c.residue)
    (T := fun (x : AdjoinRoot M) t => ∃ q : (ZMod p)[X], q.degree < M.degree ∧ AdjoinRoot.mk M q = x ∧ t = fpOut q)
    (fun c x hc => by
      obtain ⟨q, hq1, hq2, hq3⟩ := hc.hr
      exact ⟨_, C93_fp_print hp.out.pos hq1, q, hq2, hq3, rfl⟩)
    ⟨0, by rw [degree_zero, bot_lt_iff_ne_bot, Ne, degree_eq_bot]; exact hM0, by simp, by simp [fpOut, showInt, showNat]⟩ ha
  choose q hq1 hq2 hq3 using h4
  have hg : g = fun i => fpOut (q i) := funext hq3
  subst hg
  refine ⟨f, q, _, h1, h2, fun i => ⟨hq1 i, hq2 i⟩, rfl, ?_, ?_, ?_⟩
  · unfold fpnModShow
    rw [h5, ok_bind]
  · obtain ⟨c0, hc0, hc0'⟩ := ha.hm.c0
    have e : get_coeff FpMod.cops a.modulus 0 = ok c0 := by
      unfold get_coeff rd
      simp [hc0]
    unfold fpnModFromString
    rw [e, ok_bind]
    refine (fpn_text hb hc0'.hm hM0 h3 fun i _ => ⟨q i, hq2 i, rfl⟩).bind fun r hr => ?_
    rw [← h2]
    exact modFinish_ok (fpnm_mk hb hN) ha.hm hr
  · intro b y rest hb' hr hr'
    obtain ⟨g', hg', _⟩ := hb'.hr
    have := C93_fpn_stream hb hM0 hg' (ts := (List.range (max 1 N.natDegree)).reverse.map fun i => fpOut (q i))
      (xs := (List.range (max 1 N.natDegree)).reverse.map f.coeff) (by simp)
      (forall₂_range fun i hi => by rw [← hq2 i]; exact fpOut_word (by omega) _) hr hr'
    rw [horner_coeffs f h3] at this
    unfold fpnModExtract
    refine this.bind fun r hr => (fpnm_mk hb hN r.1 f hr.1 _ hb'.hm).bind fun c hc => ?_
    rw [h2] at hc
    exact ⟨_, rfl, hc, hr.2⟩

end FpM

/-! #### f2n_polymod_t -/

section F2M
open F2P
variable {m : (ZMod 2)[X]} [hm : Fact (Irreducible m)] {N : (AdjoinRoot m)[X]}

theorem f2nm_mk (hN : N ≠ 0) (r : CPoly F2Mod) (f : (AdjoinRoot m)[X]) (hr : PRep (F2Mod.Rep m) r f) (n : CPoly F2Mod)
    (hn : PRep (F2Mod.Rep m) n N) : (CMod.mk' F2Mod.cops r n).Ok fun a => CMod.Rep (F2Mod.Rep m) N a (AdjoinRoot.mk N f) :=
  sat_false.1 (CMod.mk'_sat (F2Mod.cops_ref hm.out.ne_zero) hr hn hN)

/-- C93: `f2n_polymod_t::from_string` makes the class of the polynomial read; colons alone are undefined behaviour
(violated). -/
theorem C93_f2nmod_from_string {nn : CPoly F2Mod} (hn : PRep (F2Mod.Rep m) nn N) (hN : N ≠ 0)
    {t : List Char} {ts : List (List Char)} (hts : (t.splitOnP (· == ':')).filter (· ≠ []) = ts) :
    (∀ xs, ts ≠ [] → List.Forall₂ (F2Reads m) ts xs → (f2nModFromString nn t).Ok fun o =>
      ∃ a, o = some a ∧ CMod.Rep (F2Mod.Rep m) N a (AdjoinRoot.mk N (horner xs))) ∧
    ((∃ s ∈ ts, ∀ x : AdjoinRoot m, ¬ F2Reads m s x) → f2nModFromString nn t = ok none) ∧
    (ts = [] → f2nModFromString nn t = ub) := by
  obtain ⟨c0, hc0, hc0'⟩ := hn.c0
  have e : f2nModFromString nn t = (f2nFromString c0.modulus t >>= modFinish F2Mod.cops nn) := by
    unfold f2nModFromString
    have : get_coeff F2Mod.cops nn 0 = ok c0 := by
      unfold get_coeff rd
      simp [hc0]
    rw [this, ok_bind]
  rw [e]
  have key := C93_f2n_from_string hc0'.cm hc0'.hm hm.out.ne_zero hts
  refine ⟨fun xs h1 h2 => ?_, fun h => ?_, fun h => by rw [key.2.2 h]; rfl⟩
  · exact (key.1 xs h1 h2).bind fun r hr => modFinish_ok (f2nm_mk hN) hn hr
  · obtain ⟨_, h4, b, rfl⟩ := key.2.1 h
    rw [h4]; rfl

/-- C93: printed with as many coefficients as residues can have, and read back as the same residue. -/
theorem C93_f2nmod_round_trip {a : CMod F2Mod} {x : AdjoinRoot N} (ha : CMod.Rep (F2Mod.Rep m) N a x) :
    ∃ (f : (AdjoinRoot m)[X]) (q : ℕ → (ZMod 2)[X]) (t : List Char), f.degree < N.degree ∧ AdjoinRoot.mk N f = x ∧
      (∀ i, (q i).degree < m.degree ∧ AdjoinRoot.mk m (q i) = f.coeff i) ∧
      t = List.intercalate [':'] ((List.range (max 1 N.natDegree)).reverse.map fun i => hexOf (nval (q i))) ∧
      f2nModShow a = ok t ∧
      ((f2nModFromString a.modulus t).Ok fun o => ∃ b, o = some b ∧ CMod.Rep (F2Mod.Rep m) N b x) ∧
      ∀ (b : CMod F2Mod) (y : AdjoinRoot N) (rest : List Char), CMod.Rep (F2Mod.Rep m) N b y →
        (∀ c ∈ rest.head?, hexVal c = none) → rest.head? ≠ some ':' → (f2nModExtract b (t ++ rest)).Ok fun r =>
          CMod.Rep (F2Mod.Rep m) N r.1 x ∧ r.2 = ⟨rest, rest.isEmpty, false⟩ := by
  have hN : N ≠ 0 := ha.m_ne
  have hm0 : m ≠ 0 := hm.out.ne_zero
  obtain ⟨f, g, h1, h2, h3, h4, h5⟩ := modTexts_ok (O := F2Mod.cops) (sh := fun c => F2P.print c.residue)
    (T := fun (x : AdjoinRoot m) t => ∃ q : (ZMod 2)[X], q.degree < m.degree ∧ AdjoinRoot.mk m q = x ∧ t = hexOf (nval q))
    (fun c x hc => ⟨_, print_ok hc.cr.ne_nil, _, hc.deg, hc.val, rfl⟩)
    ⟨0, by rw [degree_zero, bot_lt_iff_ne_bot, Ne, degree_eq_bot]; exact hm0, by simp, by
      rw [show nval (0 : (ZMod 2)[X]) = 0 by simp [nval], hexOf_lt (by norm_num)]; rfl⟩ ha
  choose q hq1 hq2 hq3 using h4
  have hg : g = fun i => hexOf (nval (q i)) := funext hq3
  subst hg
  refine ⟨f, q, _, h1, h2, fun i => ⟨hq1 i, hq2 i⟩, rfl, ?_, ?_, ?_⟩
  · obtain ⟨f', hf', _⟩ := ha.hr
    obtain ⟨c0, hc0, hc0'⟩ := hf'.c0
    have e : get_coeff F2Mod.cops a.residue 0 = ok c0 := by
      unfold get_coeff rd
      simp [hc0]
    unfold f2nModShow
    rw [e, ok_bind, f2nSep_ok hc0', ok_bind, h5, ok_bind, if_neg]
    rintro rfl
    exact hm.out.not_isUnit isUnit_one
  · have htok := tokens_intercalate (sep := ':') (ts := (List.range (max 1 N.natDegree)).reverse.map fun i => hexOf (nval (q i)))
      (fun t ht => by
        obtain ⟨i, _, rfl⟩ := List.mem_map.1 ht
        exact hexOf_colon _)
      (fun t ht => by
        obtain ⟨i, _, rfl⟩ := List.mem_map.1 ht
        exact hexOf_ne_nil _)
    have := (C93_f2nmod_from_string ha.hm hN htok).1 ((List.range (max 1 N.natDegree)).reverse.map f.coeff) (by simp)
      (forall₂_range fun i hi => by rw [← hq2 i]; exact word_reads (hexOf_word _))
    rwa [horner_coeffs f h3, h2] at this
  · intro b y rest hb' hr hr'
    obtain ⟨g', hg', _⟩ := hb'.hr
    obtain ⟨c0, hc0, hc0'⟩ := hg'.c0
    have := C93_f2n_stream true hc0'.cm hc0'.hm hm0 hc0 rfl (ts := (List.range (max 1 N.natDegree)).reverse.map fun i => hexOf (nval (q i)))
      (xs := (List.range (max 1 N.natDegree)).reverse.map f.coeff) (by simp)
      (forall₂_range fun i hi => by rw [← hq2 i]; exact hexOf_word _) hr hr'
    rw [horner_coeffs f h3] at this
    unfold f2nModExtract
    refine this.bind fun r hr => (f2nm_mk hN r.1 f hr.1 _ hb'.hm).bind fun c hc => ?_
    rw [h2] at hc
    exact ⟨_, rfl, hc, by simpa using hr.2⟩

example : f2nModShow ⟨⟨0, [⟨[2], [7]⟩]⟩, ⟨2, [⟨[1], [7]⟩, ⟨[2], [7]⟩, ⟨[1], [7]⟩]⟩⟩ = ok "0:2".toList ∧
    f2nModFromString ⟨2, [⟨[1], [7]⟩, ⟨[2], [7]⟩, ⟨[1], [7]⟩]⟩ "::".toList = ub := by decide +kernel

end F2M

end PText93
end Spffl.Props
