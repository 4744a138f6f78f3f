import Verif.Model.PolyRatText
import Verif.Proof.PolyRat
import Verif.Proof.VecText
import Verif.Proof.ExprInst2
import Verif.Proof.ExprMat

/-!
# Proofs about the text of quotients of polynomials, and about their operators in the calculators
-/

namespace Spffl
open Res Polynomial Scan VText PText

namespace PRat

/-- The texts of a quotient: a polynomial, or two with a slash between them, of which the second is not zero. -/
def QText {K : Type} [Field K] (Text : List Char → K[X] → Prop) (t : List Char) (x : RatFunc K) : Prop :=
  (∃ n, Text t n ∧ x = algebraMap K[X] (RatFunc K) n) ∨ ∃ u v n d, t = u ++ '/' :: v ∧ Text u n ∧ Text v d ∧ d ≠ 0 ∧
    x = algebraMap K[X] (RatFunc K) n / algebraMap K[X] (RatFunc K) d

variable {P K : Type} [Field K] [DecidableEq K[X]] {O : RatOps P} {T : RatText P} {rep wrep : P → K[X] → Prop}
  {ord : K[X] → K[X] → Prop} {Text : List Char → K[X] → Prop} {lead : Char → Bool}

local notation "φ" => algebraMap K[X] (RatFunc K)

/-- What is asked of the text operators of a polynomial class: `Text t f` says that `t` is a text of `f`, and `lead` holds of the
characters that a text may start with.  After a text there may be the end, a blank or a `/`.  Without a text nothing is consumed but
blanks, and the object is left as it was or is set to zero. -/
structure TextRef (T : RatText P) (rep : P → K[X] → Prop) (Text : List Char → K[X] → Prop) (lead : Char → Bool) : Prop where
  read : ∀ {z f0}, rep z f0 → ∀ {ws t f rest}, (∀ c ∈ ws, blank c = true) → Text t f →
    (∀ c ∈ rest.head?, blank c = true ∨ c = '/') →
    (T.read z (ws ++ t ++ rest)).Ok fun r => rep r.1 f ∧ r.2 = ⟨rest, rest.isEmpty, false⟩
  none : ∀ {z f0}, rep z f0 → ∀ {ws rest}, (∀ c ∈ ws, blank c = true) → (∀ c ∈ rest.head?, lead c = false ∧ blank c = false) →
    (T.read z (ws ++ rest)).Ok fun r => (rep r.1 f0 ∨ rep r.1 0) ∧ r.2 = ⟨rest, rest.isEmpty, true⟩
  print : ∀ {a f}, rep a f → ∃ t, T.print a = ok t ∧ Text t f
  clean : ∀ {t f}, Text t f → t ≠ [] ∧ ∀ c ∈ t, plain c = true
  isOne : ∀ {a f}, rep a f → (T.isOne a).Ok fun r => r = true ↔ f = 1

theorem dropWhile_stop {p : Char → Bool} (hp : ∀ c, p c = true → blank c = true) {u : List Char}
    (hu : ∀ c ∈ u.head?, blank c = false) : ∀ ws : List Char, (ws ++ u).dropWhile p = ws.dropWhile p ++ u
  | [] => by
    cases u with
    | nil => rfl
    | cons c u =>
      have : p c = false := by
        by_contra h
        have := hp c (by simpa using h)
        rw [hu c (by simp)] at this
        cases this
      simp [this]
  | c :: ws => by
    by_cases h : p c = true
    · rw [List.cons_append, List.dropWhile_cons_of_pos h, List.dropWhile_cons_of_pos h, dropWhile_stop hp hu ws]
    · rw [List.cons_append, List.dropWhile_cons_of_neg h, List.dropWhile_cons_of_neg h, List.cons_append]

/-- The three loops skip blanks only. -/
theorem skipRat_append {ws u : List Char} (hw : ∀ c ∈ ws, blank c = true) (hu : ∀ c ∈ u.head?, blank c = false) :
    ∃ ws', (∀ c ∈ ws', blank c = true) ∧ skipRat (ws ++ u) = ws' ++ u := by
  refine ⟨skipRat ws, fun c hc => hw c ?_, ?_⟩
  · unfold skipRat at hc
    exact (List.dropWhile_sublist _).subset ((List.dropWhile_sublist _).subset ((List.dropWhile_sublist _).subset hc))
  · unfold skipRat
    rw [dropWhile_stop (by simp [blank]) hu, dropWhile_stop (by simp [blank]) hu, dropWhile_stop (by simp [blank]) hu]

theorem head_plain {t : List Char} (h : t ≠ [] ∧ ∀ c ∈ t, plain c = true) (r : List Char) : ∀ c ∈ (t ++ r).head?, blank c = false := by
  obtain ⟨c, t, rfl⟩ := List.exists_cons_of_ne_nil h.1
  intro d hd
  obtain rfl : c = d := by simpa using hd
  have := h.2 c (by simp)
  by_contra hb
  simp only [blank, Bool.not_eq_false, Bool.or_eq_true, decide_eq_true_eq] at hb
  rcases hb with (rfl | rfl) | rfl <;> (revert this; decide)

theorem psub_one (H : RatRef False O rep wrep ord) {a : P} {x : K[X]} (ha : rep a x) : (O.psub a 1).Ok fun r => rep r 1 := by
  have := sat_false.1 (H.psub 1 (by decide) ha)
  simpa using this

theorem sub_zero_sat (H : RatRef False O rep wrep ord) {z : PRat P} {f : RatFunc K} (hz : Rep rep z f) : (sub O z z).Ok fun z => Rep rep z 0 := by
  obtain ⟨n, d, hz, _⟩ := hz
  have := sat_false.1 (sub_sat H hz hz)
  rwa [sub_self] at this

/-- Reading a text of a quotient. -/
theorem extract_ok (H : RatRef False O rep wrep ord) (R : TextRef T rep Text lead) {z : PRat P} {f0 : RatFunc K} (hz : Rep rep z f0)
    {ws t rest : List Char} {x : RatFunc K} (hw : ∀ c ∈ ws, blank c = true) (ht : QText Text t x) (hr : ∀ c ∈ rest.head?, blank c = true) :
    (extract O T z (ws ++ t ++ rest)).Ok fun r => Rep rep r.1 x ∧ r.2 = ⟨rest, rest.isEmpty, false⟩ := by
  obtain ⟨n0, d0, hz, _⟩ := hz
  unfold extract
  rcases ht with ⟨n, ht, rfl⟩ | ⟨u, v, n, d, rfl, hu, hv, hd, rfl⟩
  · obtain ⟨ws', hw', e⟩ := skipRat_append hw (head_plain (R.clean ht) rest)
    rw [List.append_assoc, e, ← List.append_assoc]
    refine (R.read hz.hn hw' ht fun c hc => .inl (hr c hc)).bind fun r hr' => ?_
    have hden : (denomText O T r.1 z.denom r.2).Ok fun p => rep p.1 1 ∧ p.2 = ⟨rest, rest.isEmpty, false⟩ := by
      unfold denomText
      rw [hr'.2]
      obtain ⟨o, ho, ho'⟩ := psub_one H hr'.1
      cases rest with
      | nil => simp only [List.isEmpty_nil, if_true, ho, ok_bind]; exact ⟨_, rfl, ho', rfl⟩
      | cons c rest =>
        have hc : c ≠ '/' := by
          rintro rfl
          have := hr '/' (by simp)
          revert this; decide
        simp only [List.isEmpty_cons, Bool.false_eq_true, if_false, IStream.peek, IStream.good, Bool.not_false, Bool.and_self, if_true,
          Option.some.injEq, hc, ho, ok_bind]
        exact ⟨_, rfl, ho', rfl⟩
    refine hden.bind fun p hp => ?_
    refine (sat_false.1 (simplify_sat H (a := ⟨r.1, p.1⟩) (H.weak hr'.1) (H.weak hp.1) one_ne_zero)).bind fun q hq => ⟨_, rfl, ?_, hp.2⟩
    simpa using hq
  · have e1 : ws ++ (u ++ '/' :: v) ++ rest = ws ++ (u ++ '/' :: (v ++ rest)) := by simp
    obtain ⟨ws', hw', e⟩ := skipRat_append hw (head_plain (R.clean hu) ('/' :: (v ++ rest)))
    rw [e1, e, ← List.append_assoc]
    refine (R.read hz.hn hw' hu (rest := '/' :: (v ++ rest)) (by simp)).bind fun r hr' => ?_
    have hden : (denomText O T r.1 z.denom r.2).Ok fun p => rep p.1 d ∧ p.2 = ⟨rest, rest.isEmpty, false⟩ := by
      unfold denomText
      rw [hr'.2]
      simp only [List.isEmpty_cons, Bool.false_eq_true, if_false, IStream.peek, IStream.good, Bool.not_false, Bool.and_self, if_true, List.tail_cons]
      have := R.read hz.hd (ws := []) (by simp) hv fun c hc => .inl (hr c hc)
      simpa using this
    refine hden.bind fun p hp => ?_
    refine (sat_false.1 (simplify_sat H (a := ⟨r.1, p.1⟩) (H.weak hr'.1) (H.weak hp.1) hd)).bind fun q hq => ⟨_, rfl, ?_, hp.2⟩
    exact hq

/-- A zero denominator. -/
theorem extract_throw (H : RatRef False O rep wrep ord) (R : TextRef T rep Text lead) {z : PRat P} {f0 : RatFunc K} (hz : Rep rep z f0)
    {ws u v rest : List Char} {n : K[X]} (hw : ∀ c ∈ ws, blank c = true) (hu : Text u n) (hv : Text v 0)
    (hr : ∀ c ∈ rest.head?, blank c = true) : extract O T z (ws ++ (u ++ '/' :: v) ++ rest) = .throw := by
  obtain ⟨n0, d0, hz, _⟩ := hz
  have e1 : ws ++ (u ++ '/' :: v) ++ rest = ws ++ (u ++ '/' :: (v ++ rest)) := by simp
  obtain ⟨ws', hw', e⟩ := skipRat_append hw (head_plain (R.clean hu) ('/' :: (v ++ rest)))
  unfold extract
  rw [e1, e, ← List.append_assoc]
  obtain ⟨r, h1, h2, h3⟩ := R.read hz.hn hw' hu (rest := '/' :: (v ++ rest)) (by simp)
  obtain ⟨p, hp, hp', _⟩ := R.read hz.hd (ws := []) (by simp) hv fun c hc => .inl (hr c hc)
  rw [List.nil_append] at hp
  have : denomText O T r.1 z.denom r.2 = ok p := by
    unfold denomText
    rw [h3]
    simpa [IStream.peek, IStream.good] using hp
  rw [h1, ok_bind, this, ok_bind, throws_false.1 (simplify_throw H (a := ⟨r.1, p.1⟩) (H.weak hp'))]
  rfl

/-- A text that starts with something else: it is not refused unless it ends there. -/
theorem extract_none (H : RatRef False O rep wrep ord) (R : TextRef T rep Text lead) {z : PRat P} (hz : Rep rep z 0)
    {ws rest : List Char} (hw : ∀ c ∈ ws, blank c = true) (hr : ∀ c ∈ rest.head?, lead c = false ∧ blank c = false) :
    (extract O T z (ws ++ rest)).Ok fun r => Rep rep r.1 0 ∧ r.2 = ⟨rest, rest.isEmpty, rest.isEmpty⟩ := by
  obtain ⟨n0, d0, hz, _⟩ := hz
  have hn0 : n0 = 0 := hz.eq_zero_iff.mp rfl
  obtain ⟨ws', hw', e⟩ := skipRat_append hw fun c hc => (hr c hc).2
  unfold extract
  rw [e]
  refine (R.none hz.hn hw' hr).bind fun r hr' => ?_
  have h0 : rep r.1 0 := by
    rcases hr'.1 with h | h
    · rwa [hn0] at h
    · exact h
  obtain ⟨o, ho, ho'⟩ := psub_one H h0
  have hden : denomText O T r.1 z.denom r.2 = ok (o, ⟨rest, rest.isEmpty, rest.isEmpty⟩) := by
    unfold denomText
    rw [hr'.2, ho]
    cases rest with
    | nil => rfl
    | cons c rest => simp [IStream.peek, IStream.good]
  rw [hden, ok_bind]
  refine (sat_false.1 (simplify_sat H (a := ⟨r.1, o⟩) (H.weak h0) (H.weak ho') one_ne_zero)).bind fun q hq => ⟨_, rfl, ?_, rfl⟩
  simpa using hq

/-- The other reader.  Whether the end bit is set at the end of the text depends on the slash. -/
theorem extractS_ok (H : RatRef False O rep wrep ord) (R : TextRef T rep Text lead) {z : PRat P} {f0 : RatFunc K} (hz : Rep rep z f0)
    {ws t rest : List Char} {x : RatFunc K} (hw : ∀ c ∈ ws, blank c = true) (ht : QText Text t x) (hr : ∀ c ∈ rest.head?, blank c = true) :
    (extractS O T z (ws ++ t ++ rest)).Ok fun r => Rep rep r.1 x ∧ r.2.cs = rest ∧ r.2.fail = false ∧ (r.2.eof = true → rest = []) := by
  obtain ⟨n0, d0, hz, _⟩ := hz
  unfold extractS
  rcases ht with ⟨n, ht, rfl⟩ | ⟨u, v, n, d, rfl, hu, hv, hd, rfl⟩
  · obtain ⟨ws', hw', e⟩ := skipRat_append hw (head_plain (R.clean ht) rest)
    rw [List.append_assoc, e, ← List.append_assoc]
    refine (R.read hz.hn hw' ht fun c hc => .inl (hr c hc)).bind fun r hr' => ?_
    have hden : (denomTextS O T r.1 z.denom r.2).Ok fun p => rep p.1 1 ∧ p.2 = ⟨rest, false, false⟩ := by
      unfold denomTextS
      rw [hr'.2]
      obtain ⟨o, ho, ho'⟩ := psub_one H hr'.1
      cases rest with
      | nil => simp [IStream.peek, IStream.good, ho]; exact ho'
      | cons c rest =>
        have hc : c ≠ '/' := by
          rintro rfl
          have := hr '/' (by simp)
          revert this; decide
        simp [IStream.peek, IStream.good, ho, hc]; exact ho'
    refine hden.bind fun p hp => ?_
    refine (sat_false.1 (simplify_sat H (a := ⟨r.1, p.1⟩) (H.weak hr'.1) (H.weak hp.1) one_ne_zero)).bind fun q hq => ⟨_, rfl, ?_, ?_⟩
    · simpa using hq
    · dsimp only; rw [hp.2]; simp
  · have e1 : ws ++ (u ++ '/' :: v) ++ rest = ws ++ (u ++ '/' :: (v ++ rest)) := by simp
    obtain ⟨ws', hw', e⟩ := skipRat_append hw (head_plain (R.clean hu) ('/' :: (v ++ rest)))
    rw [e1, e, ← List.append_assoc]
    refine (R.read hz.hn hw' hu (rest := '/' :: (v ++ rest)) (by simp)).bind fun r hr' => ?_
    have hden : (denomTextS O T r.1 z.denom r.2).Ok fun p => rep p.1 d ∧ p.2 = ⟨rest, rest.isEmpty, false⟩ := by
      unfold denomTextS
      rw [hr'.2]
      simp only [List.isEmpty_cons, IStream.peek, IStream.good, Bool.not_false, Bool.and_self, if_true, List.tail_cons]
      have := R.read hz.hd (ws := []) (by simp) hv fun c hc => .inl (hr c hc)
      simpa using this
    refine hden.bind fun p hp => ?_
    refine (sat_false.1 (simplify_sat H (a := ⟨r.1, p.1⟩) (H.weak hr'.1) (H.weak hp.1) hd)).bind fun q hq => ⟨_, rfl, hq, ?_⟩
    dsimp only; rw [hp.2]; simp

/-- It does not fail if there is no text, not even at the end. -/
theorem extractS_none (H : RatRef False O rep wrep ord) (R : TextRef T rep Text lead) {z : PRat P} (hz : Rep rep z 0)
    {ws rest : List Char} (hw : ∀ c ∈ ws, blank c = true) (hr : ∀ c ∈ rest.head?, lead c = false ∧ blank c = false) :
    (extractS O T z (ws ++ rest)).Ok fun r => Rep rep r.1 0 ∧ r.2 = ⟨rest, false, false⟩ := by
  obtain ⟨n0, d0, hz, _⟩ := hz
  have hn0 : n0 = 0 := hz.eq_zero_iff.mp rfl
  obtain ⟨ws', hw', e⟩ := skipRat_append hw fun c hc => (hr c hc).2
  unfold extractS
  rw [e]
  refine (R.none hz.hn hw' hr).bind fun r hr' => ?_
  have h0 : rep r.1 0 := by
    rcases hr'.1 with h | h
    · rwa [hn0] at h
    · exact h
  obtain ⟨o, ho, ho'⟩ := psub_one H h0
  have hden : denomTextS O T r.1 z.denom r.2 = ok (o, ⟨rest, false, false⟩) := by
    unfold denomTextS
    rw [hr'.2, ho]
    cases rest <;> simp [IStream.peek, IStream.good]
  rw [hden, ok_bind]
  refine (sat_false.1 (simplify_sat H (a := ⟨r.1, o⟩) (H.weak h0) (H.weak ho') one_ne_zero)).bind fun q hq => ⟨_, rfl, ?_, rfl⟩
  simpa using hq

/-- What is printed is a text. -/
theorem shown_ok (R : TextRef T rep Text lead) {a : PRat P} {x : RatFunc K} (ha : Rep rep a x) : ∃ t, shown T a = ok t ∧ QText Text t x := by
  obtain ⟨n, d, ha, _⟩ := ha
  obtain ⟨u, hu, hu'⟩ := R.print ha.hn
  obtain ⟨v, hv, hv'⟩ := R.print ha.hd
  obtain ⟨b, hb, hb'⟩ := R.isOne ha.hd
  unfold shown
  rw [hu, ok_bind, hb, ok_bind]
  cases b with
  | true =>
    have : d = 1 := hb'.mp rfl
    refine ⟨u, rfl, .inl ⟨n, hu', ?_⟩⟩
    rw [ha.val, this]; simp
  | false =>
    rw [Bool.not_false, if_pos rfl, hv, ok_bind]
    exact ⟨_, rfl, .inr ⟨u, v, n, d, rfl, hu', hv', ha.d0, ha.val⟩⟩

/-- Quotients as elements. -/
theorem io_spec (H : RatRef False O rep wrep ord) (R : TextRef T rep Text lead) : EltSpec False (io O T) (Rep rep) (QText Text) where
  sub hz := (sub_zero_sat H hz).sat
  read hz _ _ _ _ hw ht hr := (extract_ok H R hz hw ht hr).sat
  print ha := shown_ok R ha
  clean := by
    rintro t x (⟨n, h, _⟩ | ⟨u, v, n, d, rfl, hu, hv, _⟩)
    · exact R.clean h
    · refine ⟨by simp, fun c hc => ?_⟩
      simp only [List.mem_append, List.mem_cons] at hc
      rcases hc with hc | rfl | hc
      · exact (R.clean hu).2 c hc
      · rfl
      · exact (R.clean hv).2 c hc
  blanks := by
    intro z hz ws hw
    have := extract_none H R hz (rest := []) hw (by simp)
    rw [List.append_nil] at this
    exact (this.mono fun r hr => by rw [hr.2]; rfl).sat

/-- A vector with something that is not a quotient is read for ever. -/
theorem vec_forever (H : RatRef False O rep wrep ord) (R : TextRef T rep Text lead) {e : PRat P} {f : RatFunc K} (he : Rep rep e f)
    {v : List (PRat P)} {cs ws r : List Char} {c : Char} (hw : ∀ d ∈ ws, blank d = true) (hc : lead c = false) (hc' : blank c = false)
    (h : cs = [] ∨ (∃ xs, VecText (QText Text) cs xs) ∧ ws ≠ []) (n : ℕ) : readVec (io O T) n (e :: v) (cs ++ (ws ++ c :: r)) = timeout := by
  obtain ⟨z, hz, rz⟩ := sub_zero_sat H he
  have loop : ∀ n v ws, (∀ d ∈ ws, blank d = true) → vecLoop (io O T) z n v (.ofChars (ws ++ c :: r)) = timeout := by
    intro n
    induction n with
    | zero => intro v ws _; rfl
    | succ n ih =>
      intro v ws hw
      obtain ⟨q, h1, _, h2⟩ := extract_none H R rz (rest := c :: r) hw (by simp [hc, hc'])
      unfold vecLoop
      have : (io O T).read z (ws ++ c :: r) = ok q := h1
      simp only [IStream.ofChars, Bool.false_eq_true, if_false, this, ok_bind, h2, List.isEmpty_cons]
      exact ih (v ++ [q.1]) [] (by simp)
  unfold readVec
  dsimp only
  rw [show (io O T).sub e e = ok z from hz, ok_bind]
  rcases h with rfl | ⟨⟨xs, hxs⟩, hne⟩
  · exact loop n [] ws hw
  · refine vecLoop_forever (io_spec H R) rz ?_ (by simp) (fun n v => loop n v ws hw) hxs n []
    intro d hd
    rw [List.head?_append_of_ne_nil _ hne] at hd
    exact hw d (List.mem_of_mem_head? hd)

open Spffl.Expr in
/-- The calculator on something that is not a quotient. -/
theorem calc_none (H : RatRef False O rep wrep ord) (R : TextRef T rep Text lead) {zero one : PRat P} (hz : Rep rep zero 0)
    {s : String} (hs : scalarG.IsLit s) {ws r : List Char} {c : Char} (hw : ∀ d ∈ ws, blank d = true) (hc : lead c = false)
    (hc' : blank c = false) (e : s.toList = ws ++ c :: r) {A : EOps (PRat P)} :
    ∃ w, calcOp A (io O T) zero one [s] = ok [w] ∧ QText Text w 0 := by
  obtain ⟨q, h1, h3, h2⟩ := extract_none H R hz (rest := c :: r) hw (by simp [hc, hc'])
  obtain ⟨w, h4, h5⟩ := shown_ok R h3
  refine ⟨w, ?_, h5⟩
  have hd : Derives scalarG .Q (.lit s) [s] := .ofC (.ofE (.ofT (.ofF (.ofU (.ofP (.lit hs))))))
  unfold calcOp
  rw [parse_derives (scalar_fits A zero one (elt (io O T) zero) (fun s => Scan.readInt s.toList)) hd]
  have he : elt (io O T) zero s = ok q.1 := by
    unfold elt
    rw [show (io O T).read zero s.toList = ok q by rw [e]; exact h1, ok_bind, h2]
    rfl
  simp only [Expr.eval, scalar, Bool.false_eq_true, if_false, he, ok_bind]
  show each (showAtom (io O T)) [.val q.1] = _
  have : (io O T).print q.1 = ok w := h4
  simp only [each, showAtom, this, ok_bind]

/-! ### Operators -/

/-- The order that the comparisons decide: the cross products are compared, of the fractions in the form that the Euclidean
algorithm leaves. -/
def fracOrd (ord : K[X] → K[X] → Prop) (f g : RatFunc K) : Prop :=
  ∃ n d n' d' : K[X], d ≠ 0 ∧ d' ≠ 0 ∧ EuclideanDomain.gcd d n = 1 ∧ EuclideanDomain.gcd d' n' = 1 ∧ f = φ n / φ d ∧ g = φ n' / φ d' ∧
    ord (n * d') (n' * d)

theorem fracOrd_iff {f g : RatFunc K} {n d n' d' : K[X]} (h1 : d ≠ 0) (h2 : d' ≠ 0) (h3 : EuclideanDomain.gcd d n = 1)
    (h4 : EuclideanDomain.gcd d' n' = 1) (h5 : f = φ n / φ d) (h6 : g = φ n' / φ d') : fracOrd ord f g ↔ ord (n * d') (n' * d) := by
  refine ⟨?_, fun h => ⟨n, d, n', d', h1, h2, h3, h4, h5, h6, h⟩⟩
  rintro ⟨m, e, m', e', k1, k2, k3, k4, k5, k6, h⟩
  obtain ⟨rfl, rfl⟩ := lowest_unique h1 k1 h3 k3 ((frac_eq h1 k1).mp (h5.symm.trans k5))
  obtain ⟨rfl, rfl⟩ := lowest_unique h2 k2 h4 k4 ((frac_eq h2 k2).mp (h6.symm.trans k6))
  exact h

open Spffl.Expr in
theorem rref {U : Prop} (H : RatRef U O rep wrep ord) {ng : PRat P → Res (PRat P)}
    (hng : ∀ {a f}, Rep rep a f → (ng a).Sat U fun r => Rep rep r (-f)) :
    RRef U { eops O with neg := ng } (Rep rep) (fieldSem (RatFunc K)) (fracOrd ord) where
  neg := hng
  add := fun ⟨_, _, h, _⟩ ⟨_, _, h', _⟩ => add_sat H h h'
  sub := fun ⟨_, _, h, _⟩ ⟨_, _, h', _⟩ => sub_sat H h h'
  mul h h' := Rep.mul_sat H h h'
  div {a b x y} := by
    rintro ⟨_, _, h, _⟩ ⟨_, _, h', _⟩
    by_cases hy : y = 0
    · subst hy
      simp only [fieldSem, if_true]
      exact div_throw H h h'
    · simp only [fieldSem, if_neg hy]
      exact div_sat H h h' hy
  mod {a b x y} ha hb := by
    by_cases hy : y = 0
    · subst hy
      simp only [fieldSem, if_true]
      exact mod_throw H hb a
    · simp only [fieldSem, if_neg hy]
      exact mod_sat H hb hy a
  eq h h' := eq_sat H h h'
  ne h h' := (eq_sat H h h').bind fun r hr => by
    show (!r) = true ↔ _
    rw [Bool.not_eq_true', ← Bool.not_eq_true, hr]
  lt := fun ⟨n, d, h, e⟩ ⟨n', d', h', e'⟩ => (cross_sat H H.lt h h').mono fun r hr => by
    rw [hr, fracOrd_iff h.d0 h'.d0 e e' h.val h'.val, mul_comm d n']
  le := fun ⟨n, d, h, e⟩ ⟨n', d', h', e'⟩ => (cross_sat H H.le h h').mono fun r hr => by
    rw [hr, fracOrd_iff h'.d0 h.d0 e' e h'.val h.val, mul_comm d n']
  gt := fun ⟨n, d, h, e⟩ ⟨n', d', h', e'⟩ => (cross_sat H H.gt h h').mono fun r hr => by
    rw [hr, fracOrd_iff h'.d0 h.d0 e' e h'.val h.val, mul_comm d n']
  ge := fun ⟨n, d, h, e⟩ ⟨n', d', h', e'⟩ => (cross_sat H H.ge h h').mono fun r hr => by
    rw [hr, fracOrd_iff h.d0 h'.d0 e e' h.val h'.val, mul_comm d n']

theorem ng_sat {U : Prop} (H : RatRef U O rep wrep ord) {a : PRat P} {f : RatFunc K} (ha : Rep rep a f) :
    (do let z ← sub O a a; sub O z a).Sat U fun r => Rep rep r (-f) := by
  obtain ⟨_, _, ha, _⟩ := ha
  refine (sub_sat H ha ha).bind fun z hz => ?_
  rw [sub_self] at hz
  obtain ⟨_, _, hz, _⟩ := hz
  simpa using sub_sat H hz ha

theorem eltRef {U : Prop} (H : RatRef U O rep wrep ord) (d : PRat P) : EltRef U (tops O d) (Rep rep) where
  add := fun ⟨_, _, h, _⟩ ⟨_, _, h', _⟩ => add_sat H h h'
  sub := fun ⟨_, _, h, _⟩ ⟨_, _, h', _⟩ => sub_sat H h h'
  mul h h' := Rep.mul_sat H h h'
  div := by
    rintro a b x y z ⟨_, _, h, _⟩ ⟨_, _, h', _⟩ hz
    have hy : y ≠ 0 := left_ne_zero_of_mul_eq_one hz
    have e : x * z = x / y := by
      rw [eq_div_iff hy, mul_assoc, mul_comm z y, hz, mul_one]
    rw [e]
    exact div_sat H h h' hy
  eq h h' := eq_sat H h h'

theorem Rep.fun (hf : ∀ {a x y}, rep a x → rep a y → x = y) {a : PRat P} {f g : RatFunc K} (h : Rep rep a f) (h' : Rep rep a g) : f = g := by
  obtain ⟨n, d, h, _⟩ := h
  obtain ⟨n', d', h', _⟩ := h'
  rw [h.val, h'.val, hf h.hn h'.hn, hf h.hd h'.hd]

end PRat
end Spffl
