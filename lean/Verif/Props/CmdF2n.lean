import Verif.Props.CmdFp

/-!
# C103: the commands for polynomials over F2^n
-/

namespace Spffl.Props.Cmd103
open Res Scan Polynomial F2P Spffl.Cmd PText93 Cmd101
open Cmd102 (divisors_eq IrrOdd)
open CPoly (PRep)

/-! ### Text -/

/-- The stretches between colons that are not empty. -/
def stretches (cs : List Char) : List (List Char) := (cs.splitOnP (· == ':')).filter (· ≠ [])

/-- The text of a polynomial over F2[x]/(m): hexadecimal numbers with colons in between, the leading coefficient first. -/
def F2nText (m : (ZMod 2)[X]) (cs : List Char) (f : (AdjoinRoot m)[X]) : Prop :=
  ∃ xs, stretches cs ≠ [] ∧ List.Forall₂ (F2Reads m) (stretches cs) xs ∧ f = PText.horner xs

/-- A text that is no polynomial. -/
def F2nBad (m : (ZMod 2)[X]) (cs : List Char) : Prop := ∀ f : (AdjoinRoot m)[X], ¬ F2nText m cs f

/-- What is printed: the binary numbers of the coefficients, in hexadecimal. -/
noncomputable def f2nOut {m : (ZMod 2)[X]} (f : (AdjoinRoot m)[X]) : List Char :=
  List.intercalate [':'] ((List.range (f.natDegree + 1)).reverse.map fun i => hexOf (F2nP.kv m (f.coeff i)))

variable {m : (ZMod 2)[X]} [hm : Fact (Irreducible m)] {mm : F2P}

omit hm in
/-- The binary number of a residue is that of its representative of least degree. -/
theorem C103_number {q : (ZMod 2)[X]} (hq : q.degree < m.degree) : F2nP.kv m (AdjoinRoot.mk m q) = nval q := F2nP.kv_mk hq

theorem read_bad (hc : Canon mm) (ht : toPoly mm = m) {cs : List Char} (h : F2nBad m cs) : (f2nTool mm).read cs = ok none := by
  suffices hs : (PText.f2nFromString mm cs).Ok fun r => parsed r = none by
    obtain ⟨r, e1, e2⟩ := hs
    show (do let r ← PText.f2nFromString mm cs; ok (parsed r)) = _
    rw [e1, ok_bind, e2]
  by_cases hs : stretches cs = []
  · exact ⟨_, (C93_f2n_from_string hc ht hm.out.ne_zero rfl).2.2 hs, rfl⟩
  · refine ((C93_f2n_from_string hc ht hm.out.ne_zero rfl).2.1 ?_).mono ?_
    · by_contra hn
      push Not at hn
      have : ∀ l : List (List Char), (∀ t ∈ l, ∃ x, F2Reads m t x) → ∃ xs, List.Forall₂ (F2Reads m) l xs := by
        intro l
        induction l with
        | nil => exact fun _ => ⟨[], .nil⟩
        | cons t l ih =>
          intro hl
          obtain ⟨y, hy⟩ := hl t (by simp)
          obtain ⟨xs, hxs⟩ := ih fun s hs => hl s (by simp [hs])
          exact ⟨y :: xs, .cons hy hxs⟩
      obtain ⟨xs, hxs⟩ := this _ hn
      exact h _ ⟨xs, hs, hxs, rfl⟩
    · rintro r ⟨b, rfl⟩
      rfl

theorem tool (hc : Canon mm) (ht : toPoly mm = m) : ToolRef (f2nTool mm) (PRep (F2Mod.Rep m)) (F2nText m) f2nOut where
  read := by
    rintro cs f ⟨xs, h1, h2, rfl⟩
    obtain ⟨r, e1, b, rfl, e2⟩ := (C93_f2n_from_string hc ht hm.out.ne_zero rfl).1 xs h1 h2
    refine ⟨b, ?_, e2⟩
    show (do let r ← PText.f2nFromString mm cs; ok (parsed r)) = _
    rw [e1]
    rfl
  sh := by
    intro a f h
    obtain ⟨q, h1, h2⟩ := C93_f2n_print h
    rw [f2n_sep rfl] at h2
    refine h2.trans ?_
    congr 1
    unfold f2nOut
    congr 1
    refine List.map_congr_left fun i hi => ?_
    have hi' : i < f.natDegree + 1 := by simpa using hi
    rw [← (h1 i hi').2, F2nP.kv_mk (h1 i hi').1]

theorem readArg_bad (hc : Canon mm) (ht : toPoly mm = m) {cs : List Char} (h : F2nBad m cs) : Exits (readArg (f2nTool mm).read cs) [] :=
  readArg_exits (read_bad hc ht h)

theorem one (hc : Canon mm) (ht : toPoly mm = m) : ∃ o, F2Mod.mk' F2P.one mm = ok o ∧ F2Mod.Rep m o 1 := sat_false.1 (F2nP.mk1 hc ht)

omit hm in
/-- The first argument. -/
theorem par {x : List Char} (hx : IsHex x m) : ∃ mm, Prints (f2Arg x) [] mm ∧ Canon mm ∧ toPoly mm = m := by
  obtain ⟨a, h1, h2⟩ := read_hex hx
  exact ⟨a, readArg_prints h1, h2.1, h2.2⟩

theorem out_text (f : (AdjoinRoot m)[X]) {n : ℕ} (hn : f.natDegree < n) :
    F2nText m (List.intercalate [':'] ((List.range n).reverse.map fun i => hexOf (F2nP.kv m (f.coeff i)))) f := by
  have htok := PText.tokens_intercalate (sep := ':') (ts := (List.range n).reverse.map fun i => hexOf (F2nP.kv m (f.coeff i)))
    (fun t ht => by
      obtain ⟨i, _, rfl⟩ := List.mem_map.1 ht
      exact hexOf_colon _)
    (fun t ht => by
      obtain ⟨i, _, rfl⟩ := List.mem_map.1 ht
      exact hexOf_ne_nil _)
  refine ⟨(List.range n).reverse.map f.coeff, ?_, ?_, (PText.horner_coeffs f hn).symm⟩
  · show stretches _ ≠ []
    rw [show stretches _ = _ from htok]
    simp
    omega
  · rw [show stretches _ = _ from htok]
    refine forall₂_range fun i hi => ?_
    obtain ⟨q, h1, h2⟩ := F2nP.exists_red hm.out.ne_zero (f.coeff i)
    rw [← h2, F2nP.kv_mk h1]
    exact word_reads (hexOf_word _)

/-- C103: reading and writing: every text is read as one polynomial or refused; what is printed is read as what it was. -/
theorem C103_text (hc : Canon mm) (ht : toPoly mm = m) : (∀ cs (f g : (AdjoinRoot m)[X]), F2nText m cs f → F2nText m cs g → f = g) ∧
    (∀ cs (f : (AdjoinRoot m)[X]), F2nText m cs f → ∃ a, (f2nTool mm).read cs = ok (some a) ∧ (f2nTool mm).sh a = ok (f2nOut f)) ∧
    (∀ cs, (∀ f : (AdjoinRoot m)[X], ¬ F2nText m cs f) → (f2nTool mm).read cs = ok none) ∧ ∀ f : (AdjoinRoot m)[X], F2nText m (f2nOut f) f := by
  refine ⟨fun cs f g hf hg => ?_, fun cs f h => ?_, fun cs h => read_bad hc ht h, fun f => out_text f (Nat.lt_succ_self _)⟩
  · obtain ⟨a, h1, h2⟩ := (tool hc ht).read hf
    obtain ⟨b, h3, h4⟩ := (tool hc ht).read hg
    rw [h1] at h3
    cases h3
    ext i
    by_cases hi : i < a.degree + 1
    · obtain ⟨e, e1, e2⟩ := h2.co i hi
      obtain ⟨e', e3, e4⟩ := h4.co i hi
      rw [e1] at e3
      cases e3
      exact e2.val.symm.trans e4.val
    · rw [coeff_eq_zero_of_natDegree_lt (by rw [h2.deg]; omega), coeff_eq_zero_of_natDegree_lt (by rw [h4.deg]; omega)]
  · obtain ⟨a, h1, h2⟩ := (tool hc ht).read h
    exact ⟨a, h1, (tool hc ht).sh h2⟩

example : (f2nTool [7]).read "2::5".toList = ok (some ⟨1, [⟨[2], [7]⟩, ⟨[2], [7]⟩]⟩) ∧ (f2nTool [7]).read "2:x".toList = ok none ∧
    (f2nTool [7]).read ":".toList = ok none ∧ (f2nTool [7]).sh ⟨1, [⟨[2], [7]⟩, ⟨[3], [7]⟩]⟩ = ok "3:2".toList := by decide +kernel

/-! ### The commands without the first argument -/

omit hm in
theorem divisors_all [Fact (Irreducible m)] (hc : Canon mm) (ht : toPoly mm = m) (h30 : m.natDegree ≤ 30) {x : List Char} (hh : IsHex x m)
    (hx : Prints (f2Arg x) [] mm) {args : List (List Char)} (h : args ≠ []) :
    f2n_p_divisors (x :: args) = args.forM (divisors1 (f2nTool mm) false (1 < args.length)) := by
  obtain ⟨y, r, rfl⟩ := List.exists_cons_of_ne_nil h
  have := finite_adjoin m
  let _ := Fintype.ofFinite (AdjoinRoot m)
  obtain ⟨o, ho, -⟩ := field_one (read := PText.f2nFromString mm) (sh := PText.f2nShow) (F2nP.fref h30) (one hc ht)
  have e : f2n_p_divisors (x :: y :: r) = _ := divisors_eq (by
    rintro rfl
    exact not_hex (by decide) (by decide) m hh)
  rw [e]
  exact (skip hx _).trans (skip (prints_lift ho) _)

theorem divisors_mp (hc : Canon mm) (ht : toPoly mm = m) (h30 : m.natDegree ≤ 30) {x : List Char}
    (hx : Prints (f2Arg x) [] mm) {args : List (List Char)} (h : args ≠ []) :
    f2n_p_divisors ("-mp".toList :: x :: args) = args.forM (divisors1 (f2nTool mm) true (1 < args.length)) := by
  obtain ⟨y, r, rfl⟩ := List.exists_cons_of_ne_nil h
  have := finite_adjoin m
  let _ := Fintype.ofFinite (AdjoinRoot m)
  obtain ⟨o, ho, -⟩ := field_one (read := PText.f2nFromString mm) (sh := PText.f2nShow) (F2nP.fref h30) (one hc ht)
  exact (skip hx _).trans (skip (prints_lift ho) _)

omit hm in
theorem ext_eq {x : List Char} (hx : Prints (f2Arg x) [] mm) (y z : List Char) :
    f2n_p_gcd ["-e".toList, x, y, z] = extCmd (f2nTool mm) true y z := by
  unfold f2n_p_gcd
  rw [pGcd, if_neg (by simp)]
  exact skip hx _

omit hm in
theorem lcm_eq {x : List Char} (hx : Prints (f2Arg x) [] mm) {args : List (List Char)} (h : args ≠ []) :
    f2n_p_lcm (x :: args) = foldPolyCmd (f2nTool mm) (lcmOp (f2nTool mm)) args := by
  obtain ⟨y, r, rfl⟩ := List.exists_cons_of_ne_nil h
  exact skip hx _

/-- The binary number of the residue in hexadecimal, with zeros in front up to the number of digits of the greatest. -/
noncomputable def padText (c : AdjoinRoot m) : List Char :=
  List.replicate ((m.natDegree + 3) / 4 - (hexOf (F2nP.kv m c)).length) '0' ++ hexOf (F2nP.kv m c)

theorem mod_text {a : F2Mod} {c : AdjoinRoot m} (h : F2Mod.Rep m a c) : PText.f2ModShow a = ok (padText c) := by
  have hpos := hm.out.natDegree_pos
  unfold PText.f2ModShow
  rw [find_degree_ok, ok_bind, h.hm, if_neg (by omega)]
  unfold dprint padText
  rw [find_degree_ok, ok_bind, print_ok h.cr.ne_nil, ok_bind, F2nP.kv_rep h, hexOf_nval_length,
    show (m.natDegree - 1 + 4) / 4 = (m.natDegree + 3) / 4 by omega,
    show ((toPoly a.residue).natDegree + 4) / 4 = (toPoly a.residue).natDegree / 4 + 1 by omega]

/-- C103: a first argument that is no hexadecimal number: status 1 and nothing printed. -/
theorem C103_usage_prime {x : List Char} (hx : ∀ f, ¬ IsHex x f) (y z : List Char) (r : List (List Char)) :
    Exits (f2n_p_deg (x :: r)) [] ∧ Exits (f2n_p_gcd [x, y, z]) [] ∧ Exits (f2n_p_gcd ["-e".toList, x, y, z]) [] ∧
    Exits (f2n_p_lcm (x :: y :: r)) [] ∧ Exits (f2n_p_totient (x :: y :: r)) [] ∧ Exits (f2n_p_test (x :: r)) [] ∧
    Exits (f2n_p_find [x, y]) [] ∧ Exits (f2n_p_factor (x :: r)) [] ∧ (x ≠ "-mp".toList → Exits (f2n_p_divisors (x :: y :: r)) []) ∧
    Exits (f2n_p_divisors ("-mp".toList :: x :: y :: r)) [] ∧ Exits (f2n_p_eval (x :: y :: z :: r)) [] ∧ Exits (f2n_p_comp_mx [x, y]) [] ∧
    Exits (f2n_p_qp (x :: y :: r)) [] ∧ Exits (f2n_p_list [x, y]) [] := by
  have h := (readArg_no hx : Exits (f2Arg x) [])
  refine ⟨h.bind, h.bind, ?_, h.bind, h.bind, h.bind, h.bind, h.bind, fun hne => ?_, h.bind, h.bind, h.bind, h.bind, h.bind⟩
  · unfold f2n_p_gcd
    rw [pGcd, if_neg (by simp)]
    exact h.bind
  · unfold f2n_p_divisors
    rw [divisors_eq hne]
    exact h.bind

/-- C103: too few arguments, or too many: status 1 and nothing printed. -/
theorem C103_usage (x y : List Char) (args : List (List Char)) :
    Exits (f2n_p_deg []) [] ∧ (args.length ≠ 3 → args.length ≠ 4 ∨ args.head? ≠ some "-e".toList → Exits (f2n_p_gcd args) []) ∧
    Exits (f2n_p_lcm []) [] ∧ Exits (f2n_p_lcm [x]) [] ∧ Exits (f2n_p_totient []) [] ∧ Exits (f2n_p_totient [x]) [] ∧
    Exits (f2n_p_test []) [] ∧ (args.length ≠ 2 → Exits (f2n_p_find args) [] ∧ Exits (f2n_p_comp_mx args) [] ∧ Exits (f2n_p_list args) []) ∧
    Exits (f2n_p_factor []) [] ∧ Exits (f2n_p_divisors []) [] ∧ Exits (f2n_p_divisors [x]) [] ∧ Exits (f2n_p_divisors ["-mp".toList, x]) [] ∧
    Exits (f2n_p_eval []) [] ∧ Exits (f2n_p_eval [x]) [] ∧ Exits (f2n_p_eval [x, y]) [] ∧ Exits (f2n_p_qp []) [] ∧ Exits (f2n_p_qp [x]) [] := by
  refine ⟨rfl, fun h3 h4 => ?_, rfl, rfl, rfl, rfl, rfl, fun h2 => ?_, rfl, rfl, ?_, rfl, rfl, rfl, rfl, rfl, rfl⟩
  · match args, h3, h4 with
    | [], _, _ => rfl
    | [_], _, _ => rfl
    | [_, _], _, _ => rfl
    | [_, _, _], h, _ => exact absurd rfl h
    | [e, _, _, _], _, h =>
      unfold f2n_p_gcd
      rw [pGcd, if_pos (by simpa using h)]
      exact exits_exit1
    | _ :: _ :: _ :: _ :: _ :: _, _, _ => rfl
  · match args, h2 with
    | [], _ => exact ⟨rfl, rfl, rfl⟩
    | [_], _ => exact ⟨rfl, rfl, rfl⟩
    | [_, _], h => exact absurd rfl h
    | _ :: _ :: _ :: _, _ => exact ⟨rfl, rfl, rfl⟩
  · by_cases h : x = "-mp".toList
    · subst h; rfl
    · unfold f2n_p_divisors
      rw [divisors_eq h]; rfl

example : (f2n_p_gcd ["x".toList, "1".toList, "1".toList]).run = ok ([], .exit1) ∧ (f2n_p_gcd ["-f".toList, "5".toList, "1".toList, "1".toList]).run =
    ok ([], .exit1) := by decide +kernel

variable {x : List Char} (hh : IsHex x m)
include hm hh

/-! ### f2n_p_deg -/

/-- C103, f2n_p_deg: the degree of each polynomial (0 for the zero polynomial). -/
theorem C103_deg : Each (F2nText m) (F2nBad m) (fun _ => True) (fun _ => True)
    (fun several f t => t = lab several (f2nOut f) ": ".toList ++ showInt f.natDegree ++ ['\n']) (fun args => f2n_p_deg (x :: args)) := by
  obtain ⟨mm, hx, hc, ht⟩ := par hh
  exact each (body := deg1 (f2nTool mm)) (fun args _ => skip (hx) _) (fun several cs f h _ => ⟨_, rfl, field_deg (tool hc ht) h⟩)
    (fun several cs h => (readArg_bad hc ht h).bind)


example : (f2n_p_deg ["7".toList, "0:1:3".toList, "7".toList]).run = ok ("1:3: 1\n0: 0\n".toList, .val ()) := by decide +kernel

/-! ### f2n_p_gcd, f2n_p_lcm -/

/-- C103, f2n_p_gcd: the greatest common divisor of two polynomials; at an argument that is no polynomial, status 1. -/
theorem C103_gcd {y z : List Char} {u v : (AdjoinRoot m)[X]} (hy : F2nText m y u) : (F2nText m z v →
      ∃ g, Prints (f2n_p_gcd [x, y, z]) (f2nOut g ++ ['\n']) () ∧ ∀ d, d ∣ g ↔ d ∣ u ∧ d ∣ v) ∧
    (∀ bad, F2nBad m bad → Exits (f2n_p_gcd [x, bad, z]) [] ∧ Exits (f2n_p_gcd [x, y, bad]) []) := by
  obtain ⟨mm, hx, hc, ht⟩ := par hh
  have e : ∀ y z, f2n_p_gcd [x, y, z] = gcdCmd (f2nTool mm) y z := fun y z => skip (hx) _
  simp only [e]
  refine ⟨fun hz => field_gcd_prints (F2Mod.cops_ref hm.out.ne_zero) (tool hc ht) hy hz, fun bad hb => ⟨(readArg_bad hc ht hb).bind, ?_⟩⟩
  obtain ⟨a, ha, -⟩ := (tool hc ht).read hy
  exact (readArg_prints ha).then_exits (readArg_bad hc ht hb).bind

/-- C103, f2n_p_gcd -e: the printed line is a true equation, with the greatest common divisor on the left, if the second polynomial is not
zero. -/
theorem C103_ext_gcd_partial {y z : List Char} {u v : (AdjoinRoot m)[X]} (hy : F2nText m y u) : (F2nText m z v → v ≠ 0 →
      ∃ g r s, Prints (f2n_p_gcd ["-e".toList, x, y, z]) (f2nOut g ++ " = ".toList ++ f2nOut r ++ " * ".toList ++ f2nOut u ++ " + ".toList ++
          f2nOut s ++ " * ".toList ++ f2nOut v ++ ['\n']) () ∧ g = r * u + s * v ∧ ∀ d, d ∣ g ↔ d ∣ u ∧ d ∣ v) ∧
    (∀ bad, F2nBad m bad → Exits (f2n_p_gcd ["-e".toList, x, bad, z]) [] ∧ Exits (f2n_p_gcd ["-e".toList, x, y, bad]) []) := by
  obtain ⟨mm, hx, hc, ht⟩ := par hh
  have e : ∀ y z, f2n_p_gcd ["-e".toList, x, y, z] = extCmd (f2nTool mm) true y z := ext_eq hx
  simp only [e]
  refine ⟨fun hz hv => field_ext_prints (F2Mod.cops_ref hm.out.ne_zero) (tool hc ht) hy hz hv true,
    fun bad hb => ⟨(readArg_bad hc ht hb).bind, ?_⟩⟩
  obtain ⟨a, ha, -⟩ := (tool hc ht).read hy
  exact (readArg_prints ha).then_exits (readArg_bad hc ht hb).bind

/-- C103, f2n_p_gcd -e: it throws if the second polynomial is zero, although the first is the greatest common divisor, 1 times itself. -/
theorem C103_violated_ext {y z : List Char} {u : (AdjoinRoot m)[X]} (hy : F2nText m y u) (hz : F2nText m z 0) :
    ThrowsC (f2n_p_gcd ["-e".toList, x, y, z]) [] ∧ u = 1 * u + 0 * 0 ∧ ∀ d, d ∣ u ↔ d ∣ u ∧ d ∣ 0 := by
  obtain ⟨mm, hx, hc, ht⟩ := par hh
  refine ⟨?_, by ring, by simp⟩
  rw [ext_eq hx]
  exact field_ext_throws (F2Mod.cops_ref hm.out.ne_zero) (tool hc ht) hy hz true


example : (f2n_p_gcd ["7".toList, "2:0:2".toList, "1:3:2".toList]).run = ok ("1:1\n".toList, .val ()) := by decide +kernel
example : (f2n_p_gcd ["-e".toList, "7".toList, "2:0:2".toList, "1:3:2".toList]).run = ok ("1:1 = 1 * 2:0:2 + 2 * 1:3:2\n".toList, .val ()) := by decide +kernel
example : (f2n_p_gcd ["-e".toList, "7".toList, "2:0:2".toList, "0".toList]).run = ok ([], .thrown) := by decide +kernel

/-- C103, f2n_p_lcm: the least common multiple, if at most one of the polynomials is zero. -/
theorem C103_lcm_partial : (∀ args fs, args ≠ [] → List.Forall₂ (F2nText m) args fs → (fs.Pairwise fun x y => x ≠ 0 ∨ y ≠ 0) →
      ∃ l, Prints (f2n_p_lcm (x :: args)) (f2nOut l ++ ['\n']) () ∧ ∀ d, l ∣ d ↔ ∀ f ∈ fs, f ∣ d) ∧
    (∀ pre bad post fs, List.Forall₂ (F2nText m) pre fs → (fs.Pairwise fun x y => x ≠ 0 ∨ y ≠ 0) → F2nBad m bad →
      Exits (f2n_p_lcm (x :: (pre ++ bad :: post))) []) := by
  obtain ⟨mm, hx, hc, ht⟩ := par hh
  refine ⟨fun args fs hne h hp' => ?_, fun pre bad post fs h hp' hb => ?_⟩
  · rw [lcm_eq hx hne]
    exact field_lcm_prints (F2Mod.cops_ref hm.out.ne_zero) (tool hc ht) hne h hp'
  · rw [lcm_eq hx (by simp)]
    exact field_lcm_exits (F2Mod.cops_ref hm.out.ne_zero) (tool hc ht) h hp' (read_bad hc ht hb)

/-- C103, f2n_p_lcm: with two zero polynomials among the arguments it throws, although 0 is their least common multiple. -/
theorem C103_violated_lcm {args : List (List Char)} {fs : List (AdjoinRoot m)[X]} (h : List.Forall₂ (F2nText m) args fs)
    (hz : ¬ fs.Pairwise fun x y => x ≠ 0 ∨ y ≠ 0) : ThrowsC (f2n_p_lcm (x :: args)) [] ∧ ∀ d, 0 ∣ d ↔ ∀ f ∈ fs, f ∣ d := by
  obtain ⟨mm, hx, hc, ht⟩ := par hh
  rw [lcm_eq hx (by rintro rfl; cases h; exact hz .nil)]
  exact field_lcm_throws (F2Mod.cops_ref hm.out.ne_zero) (tool hc ht) h hz


example : (f2n_p_lcm ["7".toList, "2:2".toList, "1:3".toList]).run = ok ("3:1:2\n".toList, .val ()) := by decide +kernel
example : (f2n_p_lcm ["7".toList, "0".toList, "0".toList]).run = ok ([], .thrown) := by decide +kernel

/-! ### f2n_p_totient, f2n_p_test, f2n_p_find -/

/-- C103, f2n_p_totient: the number of units modulo each polynomial.  Missing: the zero polynomial, and polynomials of degree n with
p^(2n) above 2^31 - 1. -/
theorem C103_totient_partial (h30 : m.natDegree ≤ 30) : Each (F2nText m) (F2nBad m) (fun args => args ≠ []) (fun f => f ≠ 0 ∧ (2 ^ m.natDegree) ^ (2 * f.natDegree) ≤ 2147483647)
    (fun several f t => t = lab several (f2nOut f) ": ".toList ++ showInt (Nat.card (AdjoinRoot f)ˣ) ++ ['\n'])
    (fun args => f2n_p_totient (x :: args)) := by
  obtain ⟨mm, hx, hc, ht⟩ := par hh
  have := finite_adjoin m
  let _ := Fintype.ofFinite (AdjoinRoot m)
  refine each (body := totient1 (f2nTool mm)) (fun args h => ?_) (fun several cs f h hq => ⟨_, rfl, ?_⟩)
    (fun several cs h => (readArg_bad hc ht h).bind)
  · obtain ⟨y, r, rfl⟩ := List.exists_cons_of_ne_nil h
    exact skip (hx) _
  · exact field_totient (F2nP.fref h30) (tool hc ht) h hq.1 (by rw [F2nP.card_eq]; exact hq.2)

/-- C103, f2n_p_test: whether each polynomial is irreducible. -/
theorem C103_test (h30 : m.natDegree ≤ 30) : Each (F2nText m) (F2nBad m) (fun _ => True) (fun f => (f.natDegree : Int) ≤ INT_MAX)
    (fun several f t => ∃ w, Either (Irreducible f) "IRREDUCIBLE\n".toList "reducible\n".toList w ∧ t = lab several (f2nOut f) ": ".toList ++ w)
    (fun args => f2n_p_test (x :: args)) := by
  obtain ⟨mm, hx, hc, ht⟩ := par hh
  have := finite_adjoin m
  let _ := Fintype.ofFinite (AdjoinRoot m)
  exact each (body := test1 (f2nTool mm)) (fun args _ => skip (hx) _) (fun several cs f h hq => by
    obtain ⟨w, h1, h2⟩ := field_test (F2nP.fref h30) (tool hc ht) (several := several) h hq
    exact ⟨_, ⟨w, h1, rfl⟩, h2⟩) (fun several cs h => (readArg_bad hc ht h).bind)

omit hh in
theorem find_low (h30 : m.natDegree ≤ 30) {mm : F2P} (hc : Canon mm) (ht : toPoly mm = m) {d : Int} (hd : d < 1) : F2nP.find_irr mm d = .throw := by
  have := finite_adjoin m
  let _ := Fintype.ofFinite (AdjoinRoot m)
  unfold F2nP.find_irr
  obtain ⟨z, e0, hz⟩ := sat_false.mp (F2nP.mk0 hc ht)
  obtain ⟨o, e1, h1⟩ := sat_false.mp (F2nP.mk1 hc ht)
  rw [e0, ok_bind, e1, ok_bind, find_degree_ok, ok_bind]
  exact CFac.find_irr_throw (F2nP.fref h30) hz h1 _ hd

/-- C103, f2n_p_find -1: for each degree the least irreducible polynomial with constant coefficient; degrees less than one are an uncaught
exception. -/
theorem C103_find (h30 : m.natDegree ≤ 30) {cs : List Char} {lo hi : Int} (h : IsRange cs lo hi) :
    (1 ≤ lo → hi < INT_MAX → ∃ t, LeastEachK (f2nKey m) f2nOut IrrOdd lo hi t ∧ Prints (f2n_p_find [x, cs]) t ()) ∧
    (lo < 1 → lo ≤ hi → ThrowsC (f2n_p_find [x, cs]) []) := by
  obtain ⟨mm, hx, hc, ht⟩ := par hh
  have := finite_adjoin m
  let _ := Fintype.ofFinite (AdjoinRoot m)
  have e : f2n_p_find [x, cs] = degrees (fun deg => do
      let a ← lift (F2nP.find_irr mm deg)
      putLine (f2nTool mm).sh a) cs := skip (hx) _
  rw [e]
  refine ⟨fun h1 h2 => leastEachK h h2 fun n hn1 hn2 => ?_, fun h1 h2 => ?_⟩
  · lift n to ℕ using by omega
    obtain ⟨r, e1, f, f1, f2, f3, f4, f5, f6⟩ := C76_f2n_any h30 hc ht (d := n) (by omega) (by omega)
    exact ⟨f, ⟨⟨f3, f4, f5⟩, fun g hg => f6 g hg.1 hg.2.1 hg.2.2⟩, (prints_lift e1).then (putLine_prints ((tool hc ht).sh f1))⟩
  · exact (degrees_throws (txt := fun _ => []) h le_rfl h2 (fun n h3 h4 => by omega) (throws_lift (find_low h30 hc ht h1)).bind).of_eq (by simp)


example : (f2n_p_totient ["7".toList, "2:0:2".toList, "1:1:2".toList]).run = ok ("2:0:2: 12\n1:1:2: 15\n".toList, .val ()) := by decide +kernel
example : (f2n_p_test ["7".toList, "2:0:2".toList, "1:1:2".toList]).run = ok ("2:0:2: reducible\n1:1:2: IRREDUCIBLE\n".toList, .val ()) := by decide +kernel
example : (f2n_p_find ["7".toList, "1-2".toList]).run = ok ("1:1\n1:1:2\n".toList, .val ()) := by decide +kernel

/-! ### f2n_p_factor, f2n_p_divisors -/

/-- C103, f2n_p_factor: the factorization of each polynomial, the leading coefficient first unless it is 1, then powers of different monic
irreducible polynomials in ascending order; the command's own test, that the product is what was given, passes. -/
theorem C103_factor (h30 : m.natDegree ≤ 30) : Each (F2nText m) (F2nBad m) (fun _ => True) (fun f => (f.natDegree : Int) ≤ INT_MAX)
    (fun several f t => ∃ u l, FactoredK (f2nKey m) f u l ∧ t = lab several (f2nOut f) " = ".toList ++ facText f2nOut u l ++ ['\n'])
    (fun args => f2n_p_factor (x :: args)) := by
  obtain ⟨mm, hx, hc, ht⟩ := par hh
  have := finite_adjoin m
  let _ := Fintype.ofFinite (AdjoinRoot m)
  exact each (body := factor1 (f2nTool mm)) (fun args _ => skip (hx) _) (fun several cs f h hq => by
    obtain ⟨u, l, h1, h2⟩ := field_factor (F2nP.fref h30) (tool hc ht) (one hc ht) (several := several) h hq
    rw [F2nP.card_eq] at h1
    exact ⟨_, ⟨u, l, h1, rfl⟩, h2⟩) (fun several cs h => (readArg_bad hc ht h).bind)

/-- C103, f2n_p_divisors: all monic divisors of each polynomial in ascending order, if there are fewer than 2^31. -/
theorem C103_divisors (h30 : m.natDegree ≤ 30) : Each (F2nText m) (F2nBad m) (fun args => args ≠ [])
    (fun f => f ≠ 0 ∧ (f.natDegree : Int) ≤ INT_MAX ∧ Set.ncard {d | d.Monic ∧ d ∣ f} ≤ 2147483647)
    (fun several f t => ∃ w, AscendingK (f2nKey m) f2nOut (fun d => d.Monic ∧ d ∣ f) w ∧ t = lab several (f2nOut f) ": ".toList ++ w ++ ['\n'])
    (fun args => f2n_p_divisors (x :: args)) := by
  obtain ⟨mm, hx, hc, ht⟩ := par hh
  have := finite_adjoin m
  let _ := Fintype.ofFinite (AdjoinRoot m)
  exact each (body := divisors1 (f2nTool mm) false) (fun args h => divisors_all hc ht h30 hh hx h) (fun several cs f h hq => by
    obtain ⟨w, h1, h2⟩ := field_divisors (F2nP.fref h30) (tool hc ht) (one hc ht) (several := several) h hq.1 hq.2.1 hq.2.2
    rw [F2nP.card_eq] at h1
    exact ⟨_, ⟨w, h1, rfl⟩, h2⟩) (fun several cs h => (readArg_bad hc ht h).bind)

/-- C103, f2n_p_divisors: every monic polynomial divides zero, but only 1 is printed. -/
theorem C103_violated_divisors (h30 : m.natDegree ≤ 30) {cs : List Char} (h : F2nText m cs 0) :
    Prints (f2n_p_divisors [x, cs]) "1\n".toList () ∧ (X : (AdjoinRoot m)[X]).Monic ∧ (X : (AdjoinRoot m)[X]) ∣ 0 := by
  obtain ⟨mm, hx, hc, ht⟩ := par hh
  have := finite_adjoin m
  let _ := Fintype.ofFinite (AdjoinRoot m)
  refine ⟨?_, monic_X, dvd_zero _⟩
  rw [divisors_all hc ht h30 hh hx (by simp)]
  have h1 : f2nOut (1 : (AdjoinRoot m)[X]) = ['1'] := by
    have hk : F2nP.kv m 1 = 1 := by
      rw [← map_one (AdjoinRoot.mk m), F2nP.kv_mk (by rw [degree_one]; exact natDegree_pos_iff_degree_pos.1 hm.out.natDegree_pos)]
      rw [nval, ← C_1, support_C one_ne_zero]
      simp
    unfold f2nOut
    rw [natDegree_one]
    show List.intercalate _ [hexOf (F2nP.kv m (coeff 1 0))] = _
    rw [coeff_one_zero, hk, show hexOf 1 = ['1'] from by decide +kernel]
    simp [List.intercalate]
  refine ((field_divisors_zero (F2nP.fref h30) (tool hc ht) (one hc ht) (several := false) h).bind (prints_pure ())).of_eq ?_
  rw [h1]
  rfl

/-- C103, f2n_p_divisors -mp: the quotients of each polynomial by its monic irreducible divisors in ascending order; none for constants. -/
theorem C103_maximal (h30 : m.natDegree ≤ 30) : Each (F2nText m) (F2nBad m) (fun args => args ≠ []) (fun f => (f.natDegree : Int) ≤ INT_MAX)
    (fun several f t => ∃ w, (f.natDegree = 0 ∧ w = "(none)".toList ∨
        1 ≤ f.natDegree ∧ AscendingK (f2nKey m) f2nOut (fun d => ∃ q, Irreducible q ∧ q.Monic ∧ d * q = f) w) ∧
      t = lab several (f2nOut f) ": ".toList ++ w ++ ['\n'])
    (fun args => f2n_p_divisors ("-mp".toList :: x :: args)) := by
  obtain ⟨mm, hx, hc, ht⟩ := par hh
  have := finite_adjoin m
  let _ := Fintype.ofFinite (AdjoinRoot m)
  exact each (body := divisors1 (f2nTool mm) true) (fun args h => divisors_mp hc ht h30 hx h) (fun several cs f h hq => by
    obtain ⟨w, h1, h2⟩ := field_maximal (F2nP.fref h30) (tool hc ht) (one hc ht) (several := several) h hq
    rw [F2nP.card_eq] at h1
    exact ⟨_, ⟨w, h1, rfl⟩, h2⟩) (fun several cs h => (readArg_bad hc ht h).bind)

/-- C103, f2n_p_divisors -mp: the quotients keep the leading coefficient, so for one other than 1 none of them is among the divisors that
are printed without -mp. -/
theorem C103_violated_maximal (h30 : m.natDegree ≤ 30) {cs : List Char} {f : (AdjoinRoot m)[X]} (h : F2nText m cs f) (hd : 1 ≤ f.natDegree)
    (hmax : (f.natDegree : Int) ≤ INT_MAX) (hf : ¬ f.Monic) : ∃ xs : List (AdjoinRoot m)[X], xs ≠ [] ∧
      Prints (f2n_p_divisors ["-mp".toList, x, cs]) (List.intercalate [' '] (xs.map f2nOut) ++ ['\n']) () ∧ ∀ d ∈ xs, ¬ (d.Monic ∧ d ∣ f) := by
  obtain ⟨mm, hx, hc, ht⟩ := par hh
  have := finite_adjoin m
  let _ := Fintype.ofFinite (AdjoinRoot m)
  rw [divisors_mp hc ht h30 hx (by simp)]
  obtain ⟨w, h1, h2⟩ := field_maximal (F2nP.fref h30) (tool hc ht) (one hc ht) (several := false) h hmax
  rcases h1 with ⟨h1, -⟩ | ⟨-, xs, -, h3, rfl⟩
  · omega
  · refine ⟨xs, ?_, (h2.bind (prints_pure ())).of_eq (by simp [lab]), fun d hd' hm => ?_⟩
    · obtain ⟨q, hq1, hq2, d, rfl⟩ := exists_monic_irreducible_factor f (fun hu => by
        rw [natDegree_eq_zero_of_isUnit hu] at hd; omega)
      exact List.ne_nil_of_mem ((h3 d).2 ⟨q, hq2, hq1, mul_comm _ _⟩)
    · obtain ⟨q, -, hq, rfl⟩ := (h3 d).1 hd'
      exact hf (hm.1.mul hq)


example : (f2n_p_factor ["7".toList, "2:0:2".toList, "1:1:2".toList, "3".toList, "0".toList]).run = ok ("2:0:2 = 2 1:1^2\n1:1:2 = 1:1:2\n3 = 3\n0 = 0\n".toList, .val ()) := by decide +kernel
example : (f2n_p_divisors ["7".toList, "2:0:2".toList, "1:1:2".toList, "3".toList, "0".toList]).run = ok ("2:0:2: 1 1:1 1:0:1\n1:1:2: 1 1:1:2\n3: 1\n0: 1\n".toList, .val ()) := by decide +kernel
example : (f2n_p_divisors ["-mp".toList, "7".toList, "2:0:2".toList, "1:1:2".toList, "3".toList, "0".toList]).run = ok ("2:0:2: 2:2\n1:1:2: 1\n3: (none)\n0: (none)\n".toList, .val ()) := by decide +kernel

/-! ### f2n_p_eval, f2n_p_comp_mx, f2n_p_qp, f2n_p_list -/

/-- C103, f2n_p_eval: the value of the polynomial at each element of the field. -/
theorem C103_eval {y : List Char} {f : (AdjoinRoot m)[X]} (h : F2nText m y f) :
    Each (F2Reads m) (fun cs => ∀ c : AdjoinRoot m, ¬ F2Reads m cs c) (fun args => args ≠ []) (fun _ => True)
      (fun _ c t => t = padText (f.eval c) ++ ['\n']) (fun args => f2n_p_eval (x :: y :: args)) := by
  obtain ⟨mm, hx, hc, ht⟩ := par hh
  obtain ⟨a, h1, ha⟩ := (tool hc ht).read h
  have hs := f2n_spec hc ht hm.out.ne_zero
  refine each (body := fun _ => pEval1 (PText.f2nOne mm) PText.f2ModShow (CPoly.eval F2Mod.cops) a) (fun args hne => ?_)
    (fun several cs c hc _ => ⟨_, rfl, ?_⟩) (fun several cs hno => ?_)
  · obtain ⟨z, r, rfl⟩ := List.exists_cons_of_ne_nil hne
    exact (skip hx _).trans (skip (readArg_prints h1) _)
  · obtain ⟨_, e1, b, rfl, e2⟩ := sat_false.1 (hs.yes _ _ hc)
    obtain ⟨v, e3, e4⟩ := sat_false.1 (CPoly.eval_sat (F2Mod.cops_ref hm.out.ne_zero) ha e2)
    exact (readArg_prints e1).then ((prints_lift e3).then (putLine_prints (mod_text e4)))
  · exact (readArg_exits (hs.no _ hno)).bind

theorem C103_eval_usage {y : List Char} (h : F2nBad m y) (z : List Char) (r : List (List Char)) : Exits (f2n_p_eval (x :: y :: z :: r)) [] := by
  obtain ⟨mm, hx, hc, ht⟩ := par hh
  have e : f2n_p_eval (x :: y :: z :: r) = _ := skip hx _
  rw [e]
  exact (readArg_bad hc ht h).bind

/-- C103, f2n_p_comp_mx: a matrix whose characteristic polynomial is the given one, if and only if that is monic.  For constants an uncaught exception. -/
theorem C103_comp_mx {y : List Char} {f : (AdjoinRoot m)[X]} (h : F2nText m y f) :
    (1 ≤ f.natDegree → Prints (f2n_p_comp_mx [x, y]) (matText padText (companion f.natDegree f) ++ ['\n']) () ∧
      (f.Monic ↔ (companion f.natDegree f).charpoly = f)) ∧
    (f.natDegree = 0 → ThrowsC (f2n_p_comp_mx [x, y]) []) ∧ ∀ bad, F2nBad m bad → Exits (f2n_p_comp_mx [x, bad]) [] := by
  obtain ⟨mm, hx, hc, ht⟩ := par hh
  have e : ∀ y, f2n_p_comp_mx [x, y] = _ := fun y => skip (hx) _
  simp only [e]
  obtain ⟨a, h1, ha⟩ := (tool hc ht).read h
  refine ⟨fun hd => ⟨?_, fun hm => companion_charpoly hm rfl hd,
    fun hm => hm ▸ Matrix.charpoly_monic _⟩, fun hd => ?_, fun bad hb => (readArg_bad hc ht hb).bind⟩
  · obtain ⟨A, e1, e2⟩ := sat_false.1 (LinAlg.companion_sat (F2Mod.cops_ref hm.out.ne_zero) ha hd)
    exact (readArg_prints h1).then ((prints_lift e1).then (putLine_prints (showMat_text e2 fun b c hb => mod_text hb)))
  · exact (readArg_prints h1).then_throws (throws_lift (LinAlg.companion_throw (ha.deg.symm.trans hd))).bind


example : (f2n_p_eval ["23".toList, "2:0:2".toList, "1".toList, "3".toList]).run = ok ("00\n08\n".toList, .val ()) := by decide +kernel
example : (f2n_p_comp_mx ["13".toList, "1:a:2".toList]).run = ok ("a 2\n1 0\n\n".toList, .val ()) := by decide +kernel
example : (f2n_p_comp_mx ["13".toList, "2:a:2".toList]).run = ok ("a 2\n1 0\n\n".toList, .val ()) := by decide +kernel

/-- The coefficients of an integer polynomial modulo 2, from that of degree `n` down. -/
def qpText (F : ℤ[X]) (n : ℕ) : List Char :=
  List.intercalate [':'] ((List.range (n + 1)).reverse.map fun i => if F.coeff i % 2 = 0 then ['0'] else ['1'])

omit hh in
theorem kv_int (n : ℤ) : hexOf (F2nP.kv m (n : AdjoinRoot m)) = if n % 2 = 0 then ['0'] else ['1'] := by
  have h2 : (2 : AdjoinRoot m) = 0 := CharTwo.two_eq_zero
  have hd : n = 2 * (n / 2) + n % 2 := by omega
  have hn : (n : AdjoinRoot m) = ((n % 2 : ℤ) : AdjoinRoot m) := by
    conv_lhs => rw [hd]
    rw [Int.cast_add, Int.cast_mul, Int.cast_ofNat, h2, zero_mul, zero_add]
  rw [hn]
  have hpos := natDegree_pos_iff_degree_pos.1 hm.out.natDegree_pos
  rcases Int.emod_two_eq_zero_or_one n with h | h
  · rw [h, if_pos rfl, Int.cast_zero, ← map_zero (AdjoinRoot.mk m), F2nP.kv_mk (by rw [degree_zero]; exact bot_lt_of_lt hpos)]
    rw [nval, support_zero]
    decide +kernel
  · rw [h, if_neg (by decide), Int.cast_one, ← map_one (AdjoinRoot.mk m), F2nP.kv_mk (by rw [degree_one]; exact hpos)]
    rw [nval, ← C_1, support_C one_ne_zero]
    decide +kernel

/-- C103, f2n_p_qp: integer polynomials modulo 2, their text being that of a polynomial that is the given one modulo 2.  Missing: rational
coefficients cannot be written; the empty text and the coefficient -2^31, which are undefined behaviour (C93). -/
theorem C103_qp_partial : Each IsQInt NotQInt (fun args => args ≠ []) (fun _ => True)
    (fun _ F t => ∃ w, F2nText m w (F.map (Int.castRingHom (AdjoinRoot m))) ∧ w = qpText F F.natDegree ∧ t = w ++ ['\n'])
    (fun args => f2n_p_qp (x :: args)) := by
  obtain ⟨mm, hx, hc, ht⟩ := par hh
  refine each (body := fun _ => pQp1 (f2nTool mm).sh fun q => Cyclo.f2n_poly_from_qpoly q mm) (fun args hne => ?_) (fun several cs F h _ => ?_)
    (fun several cs h => (readArg_exits (read_notQ h)).bind)
  · obtain ⟨z, r, rfl⟩ := List.exists_cons_of_ne_nil hne
    exact skip hx _
  · obtain ⟨q, e1, e2⟩ := read_qint h
    have e2' := qint_rat e2
    obtain ⟨r, e3, e4, -, e5⟩ := Cyclo.f2n_from_ok hc (by rw [ht]; exact hm.out.natDegree_pos) e2' (by
      intro i
      simp)
    rw [ht] at e5
    have hget : ∀ i, i < r.degree + 1 → (CPoly.get_coeff F2Mod.cops r i).Ok fun c => F2Mod.Rep m c ((F.coeff i : ℤ) : AdjoinRoot m) := by
      intro i hi
      unfold CPoly.get_coeff
      rw [if_neg (by omega), if_neg (by omega), Int.toNat_natCast]
      have := sat_false.1 (rd_sat (e5 i (by omega)))
      simpa using this
    have hd : r.degree = F.natDegree := by rw [e4, ← e2.deg]
    have hq : qpText F F.natDegree = List.intercalate [':'] ((List.range (F.natDegree + 1)).reverse.map fun i =>
        hexOf (F2nP.kv m ((F.map (Int.castRingHom (AdjoinRoot m))).coeff i))) := by
      unfold qpText
      congr 1
      refine List.map_congr_left fun i _ => ?_
      rw [coeff_map, eq_intCast, kv_int]
    have hs : (f2nTool mm).sh r = ok (qpText F F.natDegree) := by
      show PText.f2nShow r = _
      unfold PText.f2nShow
      obtain ⟨c, hc, hc'⟩ := hget 0 (by omega)
      rw [show ((0 : ℕ) : Int) = 0 from rfl] at hc
      have h1 : m ≠ 1 := fun h => hm.out.not_isUnit (h ▸ isUnit_one)
      rw [hc, ok_bind, f2nSep_ok hc', if_neg h1, ok_bind]
      have hd' := PText.down_ok (f := fun i => (CPoly.get_coeff F2Mod.cops r i >>= fun c => F2P.print c.residue))
        (g := fun i => if F.coeff i % 2 = 0 then ['0'] else ['1']) (n := r.degree + 1) (fun i hi => by
          obtain ⟨c, h1, h2⟩ := hget i hi
          rw [h1, ok_bind, print_ok h2.cr.ne_nil, ← F2nP.kv_rep h2, kv_int])
      rw [hd', ok_bind, hd]
      rfl
    refine ⟨_, ⟨_, ?_, rfl, rfl⟩, (readArg_prints e1).then ((prints_lift e3).then (putLine_prints hs))⟩
    rw [hq]
    exact out_text _ (Nat.lt_succ_of_le natDegree_map_le)

omit hm hh in
theorem hexOf_zero (n : ℕ) : ∀ w t, hexOf n ++ t = '0' :: w → n = 0 ∧ t = w := by
  induction n using Nat.strong_induction_on with
  | _ n ih =>
    intro w t h
    by_cases hn : n < 16
    · rw [F2P.hexOf_lt hn] at h
      obtain ⟨h1, h2⟩ := List.cons.inj h
      refine ⟨?_, h2⟩
      interval_cases n <;> first | rfl | (revert h1; decide)
    · rw [F2P.hexOf_ge (by omega), List.append_assoc] at h
      have := (ih (n / 16) (by omega) _ _ h).1
      omega

/-- C103, f2n_p_qp: an even leading coefficient is printed as a zero, so the text is not what the other commands print for any
polynomial. -/
theorem C103_violated_qp {cs : List Char} {F : ℤ[X]} (h : IsQInt cs F) (hd : 1 ≤ F.natDegree) (hl : 2 ∣ F.leadingCoeff) :
    ∃ w, Prints (f2n_p_qp [x, cs]) ('0' :: ':' :: w ++ ['\n']) () ∧ ∀ g : (AdjoinRoot m)[X], f2nOut g ≠ '0' :: ':' :: w := by
  obtain ⟨ts, h1, h2⟩ := (C103_qp_partial hh).1 [cs] [F] (by simp) (.cons h .nil) (by simp)
  cases h1 with
  | cons k1 k2 =>
  cases k2
  obtain ⟨w, -, rfl, rfl⟩ := k1
  obtain ⟨n, hn⟩ : ∃ n, F.natDegree = n + 1 := ⟨F.natDegree - 1, by omega⟩
  have hz : F.coeff (n + 1) % 2 = 0 := by
    rw [← hn]
    exact Int.emod_eq_zero_of_dvd hl
  have e : qpText F F.natDegree = '0' :: ':' :: qpText F n := by
    unfold qpText
    rw [hn, List.range_succ, List.reverse_append, List.map_append, List.reverse_singleton, List.map_singleton, List.singleton_append, if_pos hz]
    rw [List.range_succ, List.reverse_append, List.map_append, List.reverse_singleton, List.map_singleton, List.singleton_append,
      List.intercalate_cons_cons]
    simp
  refine ⟨_, h2.of_eq (by rw [e, List.flatten_cons, List.flatten_nil, List.append_nil]), fun g hg => ?_⟩
  unfold f2nOut at hg
  rw [List.range_succ, List.reverse_append, List.map_append, List.reverse_singleton, List.map_singleton, List.singleton_append] at hg
  have h0 : F2nP.kv m 0 = 0 := by
    rw [← map_zero (AdjoinRoot.mk m), F2nP.kv_mk (by
      rw [degree_zero]
      exact bot_lt_of_lt (natDegree_pos_iff_degree_pos.1 hm.out.natDegree_pos)), nval, support_zero, Finset.sum_empty]
  cases hr : (List.range g.natDegree).reverse.map fun i => hexOf (F2nP.kv m (g.coeff i)) with
  | nil =>
    rw [hr] at hg
    have := (hexOf_zero _ _ _ (show hexOf (F2nP.kv m (g.coeff g.natDegree)) ++ [] = _ by simpa [List.intercalate] using hg)).2
    simp at this
  | cons a l =>
    rw [hr, List.intercalate_cons_cons, List.append_assoc] at hg
    have h3 := F2U.kv_inj hm.out.ne_zero ((hexOf_zero _ _ _ hg).1.trans h0.symm)
    rw [leadingCoeff_eq_zero.1 h3, natDegree_zero] at hr
    simp at hr

example : (f2n_p_qp ["13".toList, "2,1,2".toList, "3".toList]).run = ok ("0:1:0\n1\n".toList, .val ()) := by decide +kernel

/-- C103, f2n_p_list: for each degree from `lo` to `hi` all polynomials, in ascending order, one per line.  Missing: degrees for which the
numbers of polynomials do not fit (C70). -/
theorem C103_list_partial (h30 : m.natDegree ≤ 30) {cs : List Char} {lo hi : Int} (h : IsRange cs lo hi) (h0 : 0 ≤ lo)
    (hpow : ∀ n : ℕ, (n : Int) ≤ hi → n = 0 ∨ (2 ^ m.natDegree) ^ (2 ^ (Nat.log 2 n + 1)) ≤ 2147483647)
    (hnel : ∀ n : ℕ, (n : Int) ≤ hi → (2 ^ m.natDegree - 1) * (2 ^ m.natDegree) ^ n ≤ 2147483647) :
    ∃ L : List (AdjoinRoot m)[X], L.Pairwise (fun x y => f2nKey m x < f2nKey m y) ∧
      (∀ f, f ∈ L ↔ f ≠ 0 ∧ lo ≤ f.natDegree ∧ (f.natDegree : Int) ≤ hi) ∧
      Prints (f2n_p_list [x, cs]) (L.flatMap fun f => f2nOut f ++ ['\n']) () := by
  obtain ⟨mm, hx, hc, ht⟩ := par hh
  have := finite_adjoin m
  let _ := Fintype.ofFinite (AdjoinRoot m)
  have e : ∀ y, f2n_p_list [x, y] = _ := fun y => skip (hx) _
  rw [e]
  have hsmall : hi < 2147483647 := by
    by_contra hn
    have := hnel 31 (by omega)
    have hb : 2 ≤ 2 ^ m.natDegree := Nat.le_self_pow hm.out.natDegree_pos.ne' 2
    have h2 : 2 ^ 31 ≤ (2 ^ m.natDegree) ^ 31 := Nat.pow_le_pow_left hb _
    have h3 : 1 * (2 ^ m.natDegree) ^ 31 ≤ (2 ^ m.natDegree - 1) * (2 ^ m.natDegree) ^ 31 := Nat.mul_le_mul_right _ (by omega)
    omega
  have := field_list (F2nP.fref h30) (tool hc ht) h h0 (by unfold INT_MAX; omega)
    (fun n h1 h2 => C70_f2n_poly_partial hc ht h30 (n := n) (by omega) (hpow n h2) (hnel n h2))
  rwa [F2nP.card_eq] at this

example : (f2n_p_list ["7".toList, "0-1".toList]).run = ok ("1\n2\n3\n1:0\n1:1\n1:2\n1:3\n2:0\n2:1\n2:2\n2:3\n3:0\n3:1\n3:2\n3:3\n".toList, .val ()) := by decide +kernel

end Spffl.Props.Cmd103
