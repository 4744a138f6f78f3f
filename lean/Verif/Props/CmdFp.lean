import Verif.Proof.CmdField
import Verif.Props.CmdF2
import Verif.Props.PolyText3
import Verif.Props.PolyFactor

/-!
# C102: the commands for polynomials over Fp
-/

namespace Spffl.Props.Cmd102
open Res Scan Polynomial Spffl.Cmd PText93 Cmd101
open CPoly (PRep)

/-! ### Text -/

/-- A text that is no polynomial modulo `p`, other than the empty text where digits are not separated. -/
def FpBad (p : ℕ) (cs : List Char) : Prop := (∀ f, ¬ FpDenotes p cs f) ∧ (cs = [] → 10 ≤ p)

variable {p : ℕ} [Fact p.Prime]

theorem pos : 0 < p := (Fact.out : p.Prime).pos

theorem read_bad (hp : p ≤ 46341) {cs : List Char} (h : FpBad p cs) : (fpTool p).read cs = ok none := by
  suffices hs : (PText.fpFromString p cs).Ok fun r => parsed r = none by
    obtain ⟨r, e1, e2⟩ := hs
    show (do let r ← PText.fpFromString p cs; ok (parsed r)) = _
    rw [e1, ok_bind, e2]
  obtain ⟨h1, h2⟩ := h
  by_cases hc : ',' ∉ cs ∧ p < 10
  · have hne : cs ≠ [] := fun e => absurd (h2 e) (by omega)
    refine ((C93_fp_digits pos hc.2 hc.1).2.1 ?_).mono ?_
    · by_contra hd
      push Not at hd
      exact h1 _ (.inl ⟨hc.1, hc.2, hne, fun c h => by simpa using hd c h, rfl⟩)
    · rintro r ⟨b, rfl⟩
      rfl
  · have hc' : ',' ∈ cs ∨ 10 ≤ p := by
      by_contra hn
      push Not at hn
      exact hc ⟨hn.1, hn.2⟩
    by_cases ht : (cs.splitOnP (· == ',')).filter (· ≠ []) = []
    · refine ⟨.dangling, ?_, rfl⟩
      unfold PText.fpFromString
      rw [if_neg (fun h => hc ⟨h.1, by omega⟩)]
      unfold PText.tokens
      rw [ht]
      rfl
    · refine ((C93_fp_list pos (by omega) hc' rfl).2 ?_).mono ?_
      · by_contra hn
        push Not at hn
        have : ∀ l : List (List Char), (∀ t ∈ l, ∃ n tail, IntText t n tail ∧ InInt n) → ∃ xs, List.Forall₂ (FpReads p) l xs := by
          intro l
          induction l with
          | nil => exact fun _ => ⟨[], .nil⟩
          | cons t l ih =>
            intro hl
            obtain ⟨n, tail, k1, k2⟩ := hl t (by simp)
            obtain ⟨xs, hxs⟩ := ih fun s hs => hl s (by simp [hs])
            exact ⟨_ :: xs, .cons ⟨n, tail, k1, k2, rfl⟩ hxs⟩
        obtain ⟨xs, hxs⟩ := this _ hn
        exact h1 _ (.inr ⟨hc', xs, ht, hxs, rfl⟩)
      · rintro r ⟨b, rfl⟩
        rfl

theorem tool (hp : p ≤ 46341) : ToolRef (fpTool p) (PRep (IntMod.Rep p)) (FpDenotes p) fpOut where
  read := by
    intro cs f h
    obtain ⟨r, e1, b, rfl, e2⟩ := denotes_ok pos (by omega) h
    refine ⟨b, ?_, e2⟩
    show (do let r ← PText.fpFromString p cs; ok (parsed r)) = _
    rw [e1]
    rfl
  sh h := C93_fp_print pos h

theorem readArg_bad (hp : p ≤ 46341) {cs : List Char} (h : FpBad p cs) : Exits (readArg (fpTool p).read cs) [] := readArg_exits (read_bad hp h)

theorem one (hp : p ≤ 46341) : ∃ o, IntMod.mk' 1 p = ok o ∧ IntMod.Rep p o 1 := sat_false.1 (FpP.mk1 hp)

/-- C102: reading and writing: every text but the empty one is read as one polynomial or refused; what is printed is read as what it was. -/
theorem C102_text (hp : p ≤ 46341) : (∀ cs f g, FpDenotes p cs f → FpDenotes p cs g → f = g) ∧
    (∀ cs f, FpDenotes p cs f → ∃ a, (fpTool p).read cs = ok (some a) ∧ (fpTool p).sh a = ok (fpOut f)) ∧
    (∀ cs, cs ≠ [] → (∀ f, ¬ FpDenotes p cs f) → (fpTool p).read cs = ok none) ∧ ∀ f : (ZMod p)[X], FpDenotes p (fpOut f) f := by
  refine ⟨fun cs f g hf hg => ?_, fun cs f h => ?_, fun cs h1 h2 => read_bad hp ⟨h2, fun h => absurd h h1⟩,
    fun f => (fpOut_text (by omega) f).2.2⟩
  · obtain ⟨a, h1, h2⟩ := (tool hp).read hf
    obtain ⟨b, h3, h4⟩ := (tool hp).read hg
    rw [h1] at h3
    cases h3
    have hd : f.natDegree = g.natDegree := h2.deg.trans h4.deg.symm
    ext i
    by_cases hi : i < a.degree + 1
    · obtain ⟨e, e1, e2⟩ := h2.co i hi
      obtain ⟨e', e3, e4⟩ := h4.co i hi
      rw [e1] at e3
      cases e3
      exact e2.2.2.2.symm.trans e4.2.2.2
    · rw [coeff_eq_zero_of_natDegree_lt (by rw [h2.deg]; omega), coeff_eq_zero_of_natDegree_lt (by rw [h4.deg]; omega)]
  · obtain ⟨a, h1, h2⟩ := (tool hp).read h
    exact ⟨a, h1, (tool hp).sh h2⟩

example : (fpTool 13).read "1,-1, 20".toList = ok (some ⟨2, [⟨7, 13⟩, ⟨12, 13⟩, ⟨1, 13⟩]⟩) ∧ (fpTool 5).read "10x".toList = ok none ∧
    (fpTool 5).read ",".toList = ok none ∧ (fpTool 5).sh ⟨2, [⟨4, 5⟩, ⟨0, 5⟩, ⟨1, 5⟩]⟩ = ok "104".toList := by decide +kernel

/-- C102: with a prime below 10 an empty argument is undefined behaviour, not an error message. -/
theorem C102_violated_empty {x : List Char} {q : Int} (hx : IsInt x q) (hq : q < 10) : IsUb (fp_p_deg [x, []]) ∧ IsUb (fp_p_factor [x, []]) := by
  have hr : (fpTool q).read [] = ub := by
    show (do let r ← PText.fpFromString q []; ok (parsed r)) = _
    have e : PText.fpFromString q [] = ub := by
      unfold PText.fpFromString
      rw [if_pos ⟨by simp, hq⟩]
      rfl
    rw [e]
    rfl
  have hu : IsUb (readArg (fpTool q).read []) := IsUb.bind (ub_lift hr)
  constructor
  · show IsUb (intArg x >>= fun m => _)
    rw [skip (intArg_prints hx)]
    exact IsUb.bind (IsUb.bind hu)
  · show IsUb (intArg x >>= fun m => _)
    rw [skip (intArg_prints hx)]
    exact IsUb.bind (IsUb.bind hu)

example : (fp_p_deg ["5".toList, []]).run = ub := by decide +kernel

/-! ### The commands without the first argument -/

theorem divisors_eq {π α : Type} {par : List Char → Cmd π} {tool : π → Tool α} {x : List Char} (h : x ≠ "-mp".toList) {r : List (List Char)} :
    pDivisors par tool (x :: r) = pDivs par tool false (x :: r) := by
  unfold pDivisors
  split
  · rename_i hh
    exact absurd (List.cons.inj hh).1 h
  · rfl

theorem isInt_ne {x : List Char} {q : Int} (hx : IsInt x q) : x ≠ "-mp".toList := by
  rintro rfl
  have h := intArg_prints hx
  rw [show intArg "-mp".toList = exit1 from by unfold intArg; decide +kernel] at h
  cases h

theorem divisors_all (hp : p ≤ 46341) {x : List Char} (hx : IsInt x p) {args : List (List Char)} (h : args ≠ []) :
    fp_p_divisors (x :: args) = args.forM (divisors1 (fpTool p) false (1 < args.length)) := by
  obtain ⟨y, r, rfl⟩ := List.exists_cons_of_ne_nil h
  obtain ⟨o, ho, -⟩ := field_one (read := PText.fpFromString p) (sh := PText.fpShow) (FpP.fref hp) (one hp)
  have e : fp_p_divisors (x :: y :: r) = _ := divisors_eq (isInt_ne hx)
  rw [e]
  exact (skip (intArg_prints hx) _).trans (skip (prints_lift ho) _)

theorem divisors_mp (hp : p ≤ 46341) {x : List Char} (hx : IsInt x p) {args : List (List Char)} (h : args ≠ []) :
    fp_p_divisors ("-mp".toList :: x :: args) = args.forM (divisors1 (fpTool p) true (1 < args.length)) := by
  obtain ⟨y, r, rfl⟩ := List.exists_cons_of_ne_nil h
  obtain ⟨o, ho, -⟩ := field_one (read := PText.fpFromString p) (sh := PText.fpShow) (FpP.fref hp) (one hp)
  exact (skip (intArg_prints hx) _).trans (skip (prints_lift ho) _)

theorem ext_eq {x : List Char} {q : Int} (hx : IsInt x q) (y z : List Char) :
    fp_p_gcd ["-e".toList, x, y, z] = extCmd (fpTool q) false y z := by
  unfold fp_p_gcd
  rw [pGcd, if_neg (by simp)]
  exact skip (intArg_prints hx) _

theorem lcm_eq {x : List Char} {q : Int} (hx : IsInt x q) {args : List (List Char)} (h : args ≠ []) :
    fp_p_lcm (x :: args) = foldPolyCmd (fpTool q) (lcmOp (fpTool q)) args := by
  obtain ⟨y, r, rfl⟩ := List.exists_cons_of_ne_nil h
  exact skip (intArg_prints hx) _

theorem mod_text {a : IntMod} {c : ZMod p} (h : IntMod.Rep p a c) : showMod a = ok (showInt c.val) := by
  have hm := IntMod.check_modulus_ok h
  unfold showMod
  rw [hm, ok_bind, residue_val h]

/-- C102: a first argument that is no integer: status 1 and nothing printed. -/
theorem C102_usage_prime {x : List Char} (hx : NotInt x) (y z : List Char) (r : List (List Char)) :
    Exits (fp_p_deg (x :: r)) [] ∧ Exits (fp_p_gcd [x, y, z]) [] ∧ Exits (fp_p_gcd ["-e".toList, x, y, z]) [] ∧
    Exits (fp_p_lcm (x :: y :: r)) [] ∧ Exits (fp_p_totient (x :: y :: r)) [] ∧ Exits (fp_p_test (x :: r)) [] ∧
    Exits (fp_p_find [x, y]) [] ∧ Exits (fp_p_factor (x :: r)) [] ∧ (x ≠ "-mp".toList → Exits (fp_p_divisors (x :: y :: r)) []) ∧
    Exits (fp_p_divisors ("-mp".toList :: x :: y :: r)) [] ∧ Exits (fp_p_eval (x :: y :: z :: r)) [] ∧ Exits (fp_p_comp_mx [x, y]) [] ∧
    Exits (fp_p_qp (x :: y :: r)) [] ∧ Exits (fp_p_list [x, y]) [] := by
  have h := intArg_exits hx
  refine ⟨h.bind, h.bind, ?_, h.bind, h.bind, h.bind, h.bind, h.bind, fun hne => ?_, h.bind, h.bind, h.bind, h.bind, h.bind⟩
  · unfold fp_p_gcd
    rw [pGcd, if_neg (by simp)]
    exact h.bind
  · unfold fp_p_divisors
    rw [divisors_eq hne]
    exact h.bind

/-- C102: too few arguments, or too many: status 1 and nothing printed. -/
theorem C102_usage (x y : List Char) (args : List (List Char)) :
    Exits (fp_p_deg []) [] ∧ (args.length ≠ 3 → args.length ≠ 4 ∨ args.head? ≠ some "-e".toList → Exits (fp_p_gcd args) []) ∧
    Exits (fp_p_lcm []) [] ∧ Exits (fp_p_lcm [x]) [] ∧ Exits (fp_p_totient []) [] ∧ Exits (fp_p_totient [x]) [] ∧
    Exits (fp_p_test []) [] ∧ (args.length ≠ 2 → Exits (fp_p_find args) [] ∧ Exits (fp_p_comp_mx args) [] ∧ Exits (fp_p_list args) []) ∧
    Exits (fp_p_factor []) [] ∧ Exits (fp_p_divisors []) [] ∧ Exits (fp_p_divisors [x]) [] ∧ Exits (fp_p_divisors ["-mp".toList, x]) [] ∧
    Exits (fp_p_eval []) [] ∧ Exits (fp_p_eval [x]) [] ∧ Exits (fp_p_eval [x, y]) [] ∧ Exits (fp_p_qp []) [] ∧ Exits (fp_p_qp [x]) [] := by
  refine ⟨rfl, fun h3 h4 => ?_, rfl, rfl, rfl, rfl, rfl, fun h2 => ?_, rfl, rfl, ?_, rfl, rfl, rfl, rfl, rfl, rfl⟩
  · match args, h3, h4 with
    | [], _, _ => rfl
    | [_], _, _ => rfl
    | [_, _], _, _ => rfl
    | [_, _, _], h, _ => exact absurd rfl h
    | [e, _, _, _], _, h =>
      unfold fp_p_gcd
      rw [pGcd, if_pos (by simpa using h)]
      exact exits_exit1
    | _ :: _ :: _ :: _ :: _ :: _, _, _ => rfl
  · match args, h2 with
    | [], _ => exact ⟨rfl, rfl, rfl⟩
    | [_], _ => exact ⟨rfl, rfl, rfl⟩
    | [_, _], h => exact absurd rfl h
    | _ :: _ :: _ :: _, _ => exact ⟨rfl, rfl, rfl⟩
  · by_cases h : x = "-mp".toList
    · subst h; rfl
    · unfold fp_p_divisors
      rw [divisors_eq h]; rfl

example : (fp_p_gcd ["x".toList, "1".toList, "1".toList]).run = ok ([], .exit1) ∧ (fp_p_gcd ["-f".toList, "5".toList, "1".toList, "1".toList]).run =
    ok ([], .exit1) := by decide +kernel

variable (hp : p ≤ 46341) {x : List Char} (hx : IsInt x p)
include hp hx

/-! ### fp_p_deg -/

/-- C102, fp_p_deg: the degree of each polynomial (0 for the zero polynomial). -/
theorem C102_deg : Each (FpDenotes p) (FpBad p) (fun _ => True) (fun _ => True)
    (fun several f t => t = lab several (fpOut f) ": ".toList ++ showInt f.natDegree ++ ['\n']) (fun args => fp_p_deg (x :: args)) :=
  each (body := deg1 (fpTool p)) (fun args _ => skip (intArg_prints hx) _) (fun several cs f h _ => ⟨_, rfl, field_deg (tool hp) h⟩)
    (fun several cs h => (readArg_bad hp h).bind)

example : (fp_p_deg ["5".toList, "0132".toList, "5".toList]).run = ok ("132: 2\n0: 0\n".toList, .val ()) := by decide +kernel

/-! ### fp_p_gcd, fp_p_lcm -/

/-- C102, fp_p_gcd: the greatest common divisor of two polynomials; at an argument that is no polynomial, status 1. -/
theorem C102_gcd {y z : List Char} {u v : (ZMod p)[X]} (hy : FpDenotes p y u) : (FpDenotes p z v →
      ∃ g, Prints (fp_p_gcd [x, y, z]) (fpOut g ++ ['\n']) () ∧ ∀ d, d ∣ g ↔ d ∣ u ∧ d ∣ v) ∧
    (∀ bad, FpBad p bad → Exits (fp_p_gcd [x, bad, z]) [] ∧ Exits (fp_p_gcd [x, y, bad]) []) := by
  have e : ∀ y z, fp_p_gcd [x, y, z] = gcdCmd (fpTool p) y z := fun y z => skip (intArg_prints hx) _
  simp only [e]
  refine ⟨fun hz => field_gcd_prints (IntMod.cops_ref (Fact.out : p.Prime).two_le hp) (tool hp) hy hz, fun bad hb => ⟨(readArg_bad hp hb).bind, ?_⟩⟩
  obtain ⟨a, ha, -⟩ := (tool hp).read hy
  exact (readArg_prints ha).then_exits (readArg_bad hp hb).bind

/-- C102, fp_p_gcd -e: the printed line is a true equation, with the greatest common divisor on the left, if the second polynomial is not
zero. -/
theorem C102_ext_gcd_partial {y z : List Char} {u v : (ZMod p)[X]} (hy : FpDenotes p y u) : (FpDenotes p z v → v ≠ 0 →
      ∃ g r s, Prints (fp_p_gcd ["-e".toList, x, y, z]) (fpOut g ++ " = ".toList ++ fpOut r ++ " * ".toList ++ fpOut u ++ " + ".toList ++
          fpOut s ++ " * ".toList ++ fpOut v ++ ['\n']) () ∧ g = r * u + s * v ∧ ∀ d, d ∣ g ↔ d ∣ u ∧ d ∣ v) ∧
    (∀ bad, FpBad p bad → Exits (fp_p_gcd ["-e".toList, x, bad, z]) [] ∧ Exits (fp_p_gcd ["-e".toList, x, y, bad]) []) := by
  have e : ∀ y z, fp_p_gcd ["-e".toList, x, y, z] = extCmd (fpTool p) false y z := ext_eq hx
  simp only [e]
  refine ⟨fun hz hv => field_ext_prints (IntMod.cops_ref (Fact.out : p.Prime).two_le hp) (tool hp) hy hz hv false,
    fun bad hb => ⟨(readArg_bad hp hb).bind, ?_⟩⟩
  obtain ⟨a, ha, -⟩ := (tool hp).read hy
  exact (readArg_prints ha).then_exits (readArg_bad hp hb).bind

/-- C102, fp_p_gcd -e: it throws if the second polynomial is zero, although the first is the greatest common divisor, 1 times itself. -/
theorem C102_violated_ext {y z : List Char} {u : (ZMod p)[X]} (hy : FpDenotes p y u) (hz : FpDenotes p z 0) :
    ThrowsC (fp_p_gcd ["-e".toList, x, y, z]) [] ∧ u = 1 * u + 0 * 0 ∧ ∀ d, d ∣ u ↔ d ∣ u ∧ d ∣ 0 := by
  refine ⟨?_, by ring, by simp⟩
  rw [ext_eq hx]
  exact field_ext_throws (IntMod.cops_ref (Fact.out : p.Prime).two_le hp) (tool hp) hy hz false

example : (fp_p_gcd ["-e".toList, "5".toList, "104".toList, "0".toList]).run = ok ([], .thrown) ∧
    (fp_p_lcm ["5".toList, "0".toList, "0".toList]).run = ok ([], .thrown) := by decide +kernel

/-- C102, fp_p_lcm: the least common multiple, if at most one of the polynomials is zero. -/
theorem C102_lcm_partial : (∀ args fs, args ≠ [] → List.Forall₂ (FpDenotes p) args fs → (fs.Pairwise fun x y => x ≠ 0 ∨ y ≠ 0) →
      ∃ l, Prints (fp_p_lcm (x :: args)) (fpOut l ++ ['\n']) () ∧ ∀ d, l ∣ d ↔ ∀ f ∈ fs, f ∣ d) ∧
    (∀ pre bad post fs, List.Forall₂ (FpDenotes p) pre fs → (fs.Pairwise fun x y => x ≠ 0 ∨ y ≠ 0) → FpBad p bad →
      Exits (fp_p_lcm (x :: (pre ++ bad :: post))) []) := by
  refine ⟨fun args fs hne h hp' => ?_, fun pre bad post fs h hp' hb => ?_⟩
  · rw [lcm_eq hx hne]
    exact field_lcm_prints (IntMod.cops_ref (Fact.out : p.Prime).two_le hp) (tool hp) hne h hp'
  · rw [lcm_eq hx (by simp)]
    exact field_lcm_exits (IntMod.cops_ref (Fact.out : p.Prime).two_le hp) (tool hp) h hp' (read_bad hp hb)

/-- C102, fp_p_lcm: with two zero polynomials among the arguments it throws, although 0 is their least common multiple. -/
theorem C102_violated_lcm {args : List (List Char)} {fs : List (ZMod p)[X]} (h : List.Forall₂ (FpDenotes p) args fs)
    (hz : ¬ fs.Pairwise fun x y => x ≠ 0 ∨ y ≠ 0) : ThrowsC (fp_p_lcm (x :: args)) [] ∧ ∀ d, 0 ∣ d ↔ ∀ f ∈ fs, f ∣ d := by
  rw [lcm_eq hx (by rintro rfl; cases h; exact hz .nil)]
  exact field_lcm_throws (IntMod.cops_ref (Fact.out : p.Prime).two_le hp) (tool hp) h hz

example : (fp_p_gcd ["5".toList, "104".toList, "121".toList]).run = ok ("33\n".toList, .val ()) := by decide +kernel
example : (fp_p_gcd ["-e".toList, "5".toList, "104".toList, "121".toList]).run = ok ("33 = 1 * 104 + 4 * 121\n".toList, .val ()) := by decide +kernel
example : (fp_p_lcm ["5".toList, "104".toList, "121".toList]).run = ok ("2233\n".toList, .val ()) := by decide +kernel

/-! ### fp_p_totient, fp_p_test, fp_p_find -/

/-- C102, fp_p_totient: the number of units modulo each polynomial.  Missing: the zero polynomial, and polynomials of degree n with
p^(2n) above 2^31 - 1. -/
theorem C102_totient_partial : Each (FpDenotes p) (FpBad p) (fun args => args ≠ []) (fun f => f ≠ 0 ∧ p ^ (2 * f.natDegree) ≤ 2147483647)
    (fun several f t => t = lab several (fpOut f) ": ".toList ++ showInt (Nat.card (AdjoinRoot f)ˣ) ++ ['\n'])
    (fun args => fp_p_totient (x :: args)) := by
  refine each (body := totient1 (fpTool p)) (fun args h => ?_) (fun several cs f h hq => ⟨_, rfl, ?_⟩)
    (fun several cs h => (readArg_bad hp h).bind)
  · obtain ⟨y, r, rfl⟩ := List.exists_cons_of_ne_nil h
    exact skip (intArg_prints hx) _
  · exact field_totient (FpP.fref hp) (tool hp) h hq.1 (by rw [ZMod.card]; exact hq.2)

/-- C102, fp_p_test: whether each polynomial is irreducible. -/
theorem C102_test : Each (FpDenotes p) (FpBad p) (fun _ => True) (fun f => (f.natDegree : Int) ≤ INT_MAX)
    (fun several f t => ∃ w, Either (Irreducible f) "IRREDUCIBLE\n".toList "reducible\n".toList w ∧ t = lab several (fpOut f) ": ".toList ++ w)
    (fun args => fp_p_test (x :: args)) :=
  each (body := test1 (fpTool p)) (fun args _ => skip (intArg_prints hx) _) (fun several cs f h hq => by
    obtain ⟨w, h1, h2⟩ := field_test (FpP.fref hp) (tool hp) (several := several) h hq
    exact ⟨_, ⟨w, h1, rfl⟩, h2⟩) (fun several cs h => (readArg_bad hp h).bind)

/-- Irreducible of degree `n`, with constant coefficient. -/
def IrrOdd {K : Type} [Field K] (n : ℕ) (f : K[X]) : Prop := Irreducible f ∧ f.natDegree = n ∧ f.coeff 0 ≠ 0

/-- C102, fp_p_find -1: for each degree the least irreducible polynomial with constant coefficient; degrees less than one are an uncaught
exception. -/
theorem C102_find {cs : List Char} {lo hi : Int} (h : IsRange cs lo hi) :
    (1 ≤ lo → hi < INT_MAX → ∃ t, LeastEachK (fpKey p) fpOut IrrOdd lo hi t ∧ Prints (fp_p_find [x, cs]) t ()) ∧
    (lo < 1 → lo ≤ hi → ThrowsC (fp_p_find [x, cs]) []) := by
  have e : fp_p_find [x, cs] = degrees (fun deg => do
      let a ← lift (FpP.find_irr p deg)
      putLine (fpTool p).sh a) cs := skip (intArg_prints hx) _
  rw [e]
  refine ⟨fun h1 h2 => leastEachK h h2 fun n hn1 hn2 => ?_, fun h1 h2 => ?_⟩
  · lift n to ℕ using by omega
    obtain ⟨r, e1, f, f1, f2, f3, f4, f5, f6⟩ := C76_fp_any hp (d := n) (by omega) (by omega)
    exact ⟨f, ⟨⟨f3, f4, f5⟩, fun g hg => f6 g hg.1 hg.2.1 hg.2.2⟩, (prints_lift e1).then (putLine_prints ((tool hp).sh f1))⟩
  · exact (degrees_throws (txt := fun _ => []) h le_rfl h2 (fun n h3 h4 => by omega) (throws_lift (C76_nonpositive hp h1)).bind).of_eq (by simp)

example : (fp_p_totient ["5".toList, "104".toList, "121".toList]).run = ok ("104: 16\n121: 20\n".toList, .val ()) := by decide +kernel
example : (fp_p_test ["5".toList, "104".toList, "102".toList]).run = ok ("104: reducible\n102: IRREDUCIBLE\n".toList, .val ()) := by decide +kernel
example : (fp_p_find ["5".toList, "1-3".toList]).run = ok ("11\n102\n1011\n".toList, .val ()) := by decide +kernel

/-! ### fp_p_factor, fp_p_divisors -/

/-- C102, fp_p_factor: the factorization of each polynomial, the leading coefficient first unless it is 1, then powers of different monic
irreducible polynomials in ascending order; the command's own test, that the product is what was given, passes. -/
theorem C102_factor : Each (FpDenotes p) (FpBad p) (fun _ => True) (fun f => (f.natDegree : Int) ≤ INT_MAX)
    (fun several f t => ∃ u l, FactoredK (fpKey p) f u l ∧ t = lab several (fpOut f) " = ".toList ++ facText fpOut u l ++ ['\n'])
    (fun args => fp_p_factor (x :: args)) :=
  each (body := factor1 (fpTool p)) (fun args _ => skip (intArg_prints hx) _) (fun several cs f h hq => by
    obtain ⟨u, l, h1, h2⟩ := field_factor (FpP.fref hp) (tool hp) (one hp) (several := several) h hq
    rw [ZMod.card] at h1
    exact ⟨_, ⟨u, l, h1, rfl⟩, h2⟩) (fun several cs h => (readArg_bad hp h).bind)

/-- C102, fp_p_divisors: all monic divisors of each polynomial in ascending order, if there are fewer than 2^31. -/
theorem C102_divisors : Each (FpDenotes p) (FpBad p) (fun args => args ≠ [])
    (fun f => f ≠ 0 ∧ (f.natDegree : Int) ≤ INT_MAX ∧ Set.ncard {d | d.Monic ∧ d ∣ f} ≤ 2147483647)
    (fun several f t => ∃ w, AscendingK (fpKey p) fpOut (fun d => d.Monic ∧ d ∣ f) w ∧ t = lab several (fpOut f) ": ".toList ++ w ++ ['\n'])
    (fun args => fp_p_divisors (x :: args)) :=
  each (body := divisors1 (fpTool p) false) (fun args h => divisors_all hp hx h) (fun several cs f h hq => by
    obtain ⟨w, h1, h2⟩ := field_divisors (FpP.fref hp) (tool hp) (one hp) (several := several) h hq.1 hq.2.1 hq.2.2
    rw [ZMod.card] at h1
    exact ⟨_, ⟨w, h1, rfl⟩, h2⟩) (fun several cs h => (readArg_bad hp h).bind)

/-- C102, fp_p_divisors: every monic polynomial divides zero, but only 1 is printed. -/
theorem C102_violated_divisors {cs : List Char} (h : FpDenotes p cs 0) :
    Prints (fp_p_divisors [x, cs]) "1\n".toList () ∧ (X : (ZMod p)[X]).Monic ∧ (X : (ZMod p)[X]) ∣ 0 := by
  refine ⟨?_, monic_X, dvd_zero _⟩
  rw [divisors_all hp hx (by simp)]
  have h1 : fpOut (1 : (ZMod p)[X]) = ['1'] := by
    have : Fact (1 < p) := ⟨(Fact.out : p.Prime).one_lt⟩
    unfold fpOut
    rw [natDegree_one]
    show List.intercalate _ [showInt ((coeff 1 0 : ZMod p).val : Int)] = _
    rw [coeff_one_zero, ZMod.val_one]
    rw [show showInt ((1 : ℕ) : Int) = ['1'] from by decide +kernel]
    simp [List.intercalate]
  refine ((field_divisors_zero (FpP.fref hp) (tool hp) (one hp) (several := false) h).bind (prints_pure ())).of_eq ?_
  rw [h1]
  rfl

/-- C102, fp_p_divisors -mp: the quotients of each polynomial by its monic irreducible divisors in ascending order; none for constants. -/
theorem C102_maximal : Each (FpDenotes p) (FpBad p) (fun args => args ≠ []) (fun f => (f.natDegree : Int) ≤ INT_MAX)
    (fun several f t => ∃ w, (f.natDegree = 0 ∧ w = "(none)".toList ∨
        1 ≤ f.natDegree ∧ AscendingK (fpKey p) fpOut (fun d => ∃ q, Irreducible q ∧ q.Monic ∧ d * q = f) w) ∧
      t = lab several (fpOut f) ": ".toList ++ w ++ ['\n'])
    (fun args => fp_p_divisors ("-mp".toList :: x :: args)) :=
  each (body := divisors1 (fpTool p) true) (fun args h => divisors_mp hp hx h) (fun several cs f h hq => by
    obtain ⟨w, h1, h2⟩ := field_maximal (FpP.fref hp) (tool hp) (one hp) (several := several) h hq
    rw [ZMod.card] at h1
    exact ⟨_, ⟨w, h1, rfl⟩, h2⟩) (fun several cs h => (readArg_bad hp h).bind)

/-- C102, fp_p_divisors -mp: the quotients keep the leading coefficient, so for one other than 1 none of them is among the divisors that
are printed without -mp. -/
theorem C102_violated_maximal {cs : List Char} {f : (ZMod p)[X]} (h : FpDenotes p cs f) (hd : 1 ≤ f.natDegree)
    (hmax : (f.natDegree : Int) ≤ INT_MAX) (hf : ¬ f.Monic) : ∃ xs : List (ZMod p)[X], xs ≠ [] ∧
      Prints (fp_p_divisors ["-mp".toList, x, cs]) (List.intercalate [' '] (xs.map fpOut) ++ ['\n']) () ∧ ∀ d ∈ xs, ¬ (d.Monic ∧ d ∣ f) := by
  rw [divisors_mp hp hx (by simp)]
  obtain ⟨w, h1, h2⟩ := field_maximal (FpP.fref hp) (tool hp) (one hp) (several := false) h hmax
  rcases h1 with ⟨h1, -⟩ | ⟨-, xs, -, h3, rfl⟩
  · omega
  · refine ⟨xs, ?_, (h2.bind (prints_pure ())).of_eq (by simp [lab]), fun d hd' hm => ?_⟩
    · obtain ⟨q, hq1, hq2, d, rfl⟩ := exists_monic_irreducible_factor f (fun hu => by
        rw [natDegree_eq_zero_of_isUnit hu] at hd; omega)
      exact List.ne_nil_of_mem ((h3 d).2 ⟨q, hq2, hq1, mul_comm _ _⟩)
    · obtain ⟨q, -, hq, rfl⟩ := (h3 d).1 hd'
      exact hf (hm.1.mul hq)

example : (fp_p_factor ["5".toList, "204".toList, "121".toList, "3".toList, "0".toList]).run = ok ("204 = 2 102\n121 = 11^2\n3 = 3\n0 = 0\n".toList, .val ()) := by decide +kernel
example : (fp_p_divisors ["5".toList, "204".toList, "121".toList, "3".toList, "0".toList]).run = ok ("204: 1 102\n121: 1 11 121\n3: 1\n0: 1\n".toList, .val ()) := by decide +kernel
example : (fp_p_divisors ["-mp".toList, "5".toList, "204".toList, "121".toList, "3".toList, "0".toList]).run = ok ("204: 2\n121: 11\n3: (none)\n0: (none)\n".toList, .val ()) := by decide +kernel

/-! ### fp_p_eval, fp_p_comp_mx, fp_p_qp, fp_p_list -/

/-- The residue, from 0 to p - 1. -/
def resText (c : ZMod p) : List Char := showInt c.val

/-- C102, fp_p_eval: the value of the polynomial at each residue. -/
theorem C102_eval {y : List Char} {f : (ZMod p)[X]} (h : FpDenotes p y f) :
    Each (FpReads p) (fun cs => ∀ c : ZMod p, ¬ FpReads p cs c) (fun args => args ≠ []) (fun _ => True)
      (fun _ c t => t = resText (f.eval c) ++ ['\n']) (fun args => fp_p_eval (x :: y :: args)) := by
  obtain ⟨a, h1, ha⟩ := (tool hp).read h
  have hI : InInt p := by unfold InInt; omega
  refine each (body := fun _ => pEval1 (modFromString p) showMod (CPoly.eval IntMod.cops) a) (fun args hne => ?_) (fun several cs c hc _ => ⟨_, rfl, ?_⟩)
    (fun several cs hno => ?_)
  · obtain ⟨z, r, rfl⟩ := List.exists_cons_of_ne_nil hne
    exact (skip (intArg_prints hx) _).trans (skip (readArg_prints h1) _)
  · obtain ⟨_, e1, b, rfl, e2⟩ := sat_false.1 ((fp_one pos hI).yes _ _ hc)
    obtain ⟨v, e3, e4⟩ := sat_false.1 (CPoly.eval_sat (IntMod.cops_ref (Fact.out : p.Prime).two_le hp) ha e2)
    exact (readArg_prints e1).then ((prints_lift e3).then (putLine_prints (mod_text e4)))
  · exact (readArg_exits ((fp_one pos hI).no _ hno)).bind

theorem C102_eval_usage {y : List Char} (h : FpBad p y) (z : List Char) (r : List (List Char)) : Exits (fp_p_eval (x :: y :: z :: r)) [] := by
  have e : fp_p_eval (x :: y :: z :: r) = _ := skip (intArg_prints hx) _
  rw [e]
  exact (readArg_bad hp h).bind

/-- C102, fp_p_comp_mx: a matrix whose characteristic polynomial is the given one, if and only if that is monic.  For constants an uncaught exception. -/
theorem C102_comp_mx {y : List Char} {f : (ZMod p)[X]} (h : FpDenotes p y f) :
    (1 ≤ f.natDegree → Prints (fp_p_comp_mx [x, y]) (matText resText (companion f.natDegree f) ++ ['\n']) () ∧
      (f.Monic ↔ (companion f.natDegree f).charpoly = f)) ∧
    (f.natDegree = 0 → ThrowsC (fp_p_comp_mx [x, y]) []) ∧ ∀ bad, FpBad p bad → Exits (fp_p_comp_mx [x, bad]) [] := by
  have e : ∀ y, fp_p_comp_mx [x, y] = _ := fun y => skip (intArg_prints hx) _
  simp only [e]
  obtain ⟨a, h1, ha⟩ := (tool hp).read h
  refine ⟨fun hd => ⟨?_, fun hm => companion_charpoly hm rfl hd,
    fun hm => hm ▸ Matrix.charpoly_monic _⟩, fun hd => ?_, fun bad hb => (readArg_bad hp hb).bind⟩
  · obtain ⟨A, e1, e2⟩ := sat_false.1 (LinAlg.companion_sat (IntMod.cops_ref (Fact.out : p.Prime).two_le hp) ha hd)
    exact (readArg_prints h1).then ((prints_lift e1).then (putLine_prints (showMat_text e2 fun b c hb => mod_text hb)))
  · exact (readArg_prints h1).then_throws (throws_lift (LinAlg.companion_throw (ha.deg.symm.trans hd))).bind

example : (fp_p_eval ["5".toList, "204".toList, "1".toList, "-3".toList, "x".toList, "0".toList]).run = ok ("1\n2\n".toList, .exit1) := by decide +kernel
example : (fp_p_comp_mx ["5".toList, "1204".toList]).run = ok ("3 0 1\n1 0 0\n0 1 0\n\n".toList, .val ()) := by decide +kernel
example : (fp_p_comp_mx ["5".toList, "2204".toList]).run = ok ("3 0 1\n1 0 0\n0 1 0\n\n".toList, .val ()) := by decide +kernel

/-- The coefficients of an integer polynomial modulo p, from that of degree `n` down. -/
def qpText (p : ℕ) (F : ℤ[X]) (n : ℕ) : List Char :=
  List.intercalate (if 9 < p then [','] else []) ((List.range (n + 1)).reverse.map fun i => resText ((F.coeff i : ℤ) : ZMod p))

/-- C102, fp_p_qp: integer polynomials modulo p, their text being that of a polynomial that is the given one modulo p.  Missing: rational
coefficients cannot be written; the empty text and the coefficient -2^31, which are undefined behaviour (C93). -/
theorem C102_qp_partial : Each IsQInt NotQInt (fun args => args ≠ []) (fun _ => True)
    (fun _ F t => ∃ w, FpDenotes p w (F.map (Int.castRingHom (ZMod p))) ∧ w = qpText p F F.natDegree ∧ t = w ++ ['\n'])
    (fun args => fp_p_qp (x :: args)) := by
  refine each (body := fun _ => pQp1 (fpTool p).sh fun q => Cyclo.fp_poly_from_qpoly q p) (fun args hne => ?_) (fun several cs F h _ => ?_)
    (fun several cs h => (readArg_exits (read_notQ h)).bind)
  · obtain ⟨z, r, rfl⟩ := List.exists_cons_of_ne_nil hne
    exact skip (intArg_prints hx) _
  · obtain ⟨q, e1, e2⟩ := read_qint h
    have e2' := qint_rat e2
    obtain ⟨r, e3, e4, -, e5⟩ := Cyclo.fp_from_ok hp e2' (by
      intro i
      simpa using (Fact.out : p.Prime).one_lt.ne')
    have hget : ∀ i, i < r.degree + 1 → (CPoly.get_coeff IntMod.cops r i).Ok fun c => IntMod.Rep p c ((F.coeff i : ℤ) : ZMod p) := by
      intro i hi
      unfold CPoly.get_coeff
      rw [if_neg (by omega), if_neg (by omega), Int.toNat_natCast]
      have := sat_false.1 (rd_sat (e5 i (by omega)))
      simpa using this
    have hd : r.degree = F.natDegree := by rw [e4, ← e2.deg]
    have hs : (fpTool p).sh r = ok (qpText p F F.natDegree) := by
      show PText.fpShow r = _
      unfold PText.fpShow
      obtain ⟨c, hc, hc'⟩ := hget 0 (by omega)
      rw [show ((0 : ℕ) : Int) = 0 from rfl] at hc
      rw [hc, ok_bind]
      have hd' := PText.down_ok (f := fun i => (CPoly.get_coeff IntMod.cops r i >>= fun c => ok (showInt c.residue)))
        (g := fun i => resText ((F.coeff i : ℤ) : ZMod p)) (n := r.degree + 1) (fun i hi => by
          obtain ⟨c, h1, h2⟩ := hget i hi
          rw [h1, ok_bind, residue_val h2]
          rfl)
      rw [hd', ok_bind, hd, hc'.1]
      simp [qpText]
    refine ⟨_, ⟨_, ?_, rfl, rfl⟩, (readArg_prints e1).then ((prints_lift e3).then (putLine_prints hs))⟩
    refine (fp_text pos (by omega) (F.map (Int.castRingHom (ZMod p))) (n := F.natDegree + 1)
      (Nat.lt_succ_of_le natDegree_map_le) ?_).2.2
    simp [qpText, resText]

omit hp hx in
/-- No polynomial is printed with leading zeros. -/
theorem fpOut_head (g : (ZMod p)[X]) {w : List Char} (hw : w ≠ []) : fpOut g ≠ '0' :: w := by
  intro h
  have hlead : ∀ (c : ZMod p) t, showInt (c.val : Int) ++ t = '0' :: w → c = 0 ∧ t = w := by
    intro c t ht
    obtain ⟨h1, h2, h3, h4⟩ := showNat_spec c.val
    have hs : showInt (c.val : Int) = showNat c.val := by
      unfold showInt
      rw [if_neg (by omega), Int.natAbs_natCast]
    rw [hs] at ht
    have h0 : c.val = 0 := h4 (by
      cases hc : showNat c.val with
      | nil => exact absurd hc h3
      | cons d ds =>
        rw [hc] at ht
        rw [List.head?_cons, (List.cons.inj ht).1])
    rw [h0, show showNat 0 = ['0'] from by decide +kernel] at ht
    exact ⟨(ZMod.val_eq_zero c).1 h0, (List.cons.inj ht).2⟩
  unfold fpOut at h
  rw [List.range_succ, List.reverse_append, List.map_append] at h
  cases hd : g.natDegree with
  | zero =>
    rw [hd] at h
    have : showInt ((g.coeff 0).val : Int) ++ [] = '0' :: w := by
      rw [List.append_nil]
      simpa [List.intercalate] using h
    exact hw (hlead _ _ this).2.symm
  | succ n =>
    rw [hd, List.range_succ, List.reverse_append, List.map_append, List.reverse_singleton, List.map_singleton, List.singleton_append,
      List.reverse_singleton, List.map_singleton, List.singleton_append, List.intercalate_cons_cons, List.append_assoc] at h
    have hz := (hlead _ _ h).1
    rw [← hd] at hz
    have : g = 0 := leadingCoeff_eq_zero.1 hz
    rw [this] at hd
    simp at hd

/-- C102, fp_p_qp: leading coefficients divisible by p are printed as zeros, so the text is not what the other commands print for any
polynomial. -/
theorem C102_violated_qp {cs : List Char} {F : ℤ[X]} (h : IsQInt cs F) (hd : 1 ≤ F.natDegree) (hl : (p : ℤ) ∣ F.leadingCoeff) :
    ∃ w, Prints (fp_p_qp [x, cs]) ('0' :: w ++ ['\n']) () ∧ ∀ g : (ZMod p)[X], fpOut g ≠ '0' :: w := by
  obtain ⟨ts, h1, h2⟩ := (C102_qp_partial hp hx).1 [cs] [F] (by simp) (.cons h .nil) (by simp)
  cases h1 with
  | cons k1 k2 =>
  cases k2
  obtain ⟨w, -, rfl, rfl⟩ := k1
  obtain ⟨n, hn⟩ : ∃ n, F.natDegree = n + 1 := ⟨F.natDegree - 1, by omega⟩
  have hz : resText ((F.coeff (n + 1) : ℤ) : ZMod p) = ['0'] := by
    rw [← hn, show ((F.coeff F.natDegree : ℤ) : ZMod p) = 0 from (ZMod.intCast_zmod_eq_zero_iff_dvd _ _).2 hl]
    unfold resText
    rw [ZMod.val_zero]
    decide +kernel
  have e : qpText p F F.natDegree = '0' :: ((if 9 < p then [','] else []) ++
      List.intercalate (if 9 < p then [','] else []) ((List.range (n + 1)).reverse.map fun i => resText ((F.coeff i : ℤ) : ZMod p))) := by
    unfold qpText
    rw [hn, List.range_succ, List.reverse_append, List.map_append, List.reverse_singleton, List.map_singleton, List.singleton_append, hz]
    rw [List.range_succ, List.reverse_append, List.map_append, List.reverse_singleton, List.map_singleton, List.singleton_append,
      List.intercalate_cons_cons]
    simp
  refine ⟨_, h2.of_eq (by rw [e, List.flatten_cons, List.flatten_nil, List.append_nil]), fun g => fpOut_head g ?_⟩
  have hne : ∀ c : ZMod p, resText c ≠ [] := fun c => showInt_ne
  rw [List.range_succ, List.reverse_append, List.map_append, List.reverse_singleton, List.map_singleton, List.singleton_append]
  intro h0
  have h1 := (List.append_eq_nil_iff.1 h0).2
  cases hr : (List.range n).reverse.map fun i => resText ((F.coeff i : ℤ) : ZMod p) with
  | nil =>
    rw [hr] at h1
    exact hne _ (by simpa [List.intercalate] using h1)
  | cons a l =>
    rw [hr, List.intercalate_cons_cons, List.append_assoc] at h1
    exact hne _ (List.append_eq_nil_iff.1 h1).1

example : (fp_p_qp ["3".toList, "3,1".toList, "1,-1".toList, "x".toList]).run = ok ("01\n12\n".toList, .exit1) ∧
    (fp_p_deg ["3".toList, "3,1".toList, "01".toList]).run = ok ("1: 0\n1: 0\n".toList, .val ()) := by decide +kernel

/-- C102, fp_p_list: for each degree from `lo` to `hi` all polynomials, in ascending order, one per line.  Missing: degrees for which the
numbers of polynomials do not fit (C70). -/
theorem C102_list_partial {cs : List Char} {lo hi : Int} (h : IsRange cs lo hi) (h0 : 0 ≤ lo)
    (hpow : ∀ n : ℕ, (n : Int) ≤ hi → n = 0 ∨ p ^ (2 ^ (Nat.log 2 n + 1)) ≤ 2147483647)
    (hnel : ∀ n : ℕ, (n : Int) ≤ hi → (p - 1) * p ^ n ≤ 2147483647) :
    ∃ L : List (ZMod p)[X], L.Pairwise (fun x y => fpKey p x < fpKey p y) ∧
      (∀ f, f ∈ L ↔ f ≠ 0 ∧ lo ≤ f.natDegree ∧ (f.natDegree : Int) ≤ hi) ∧
      Prints (fp_p_list [x, cs]) (L.flatMap fun f => fpOut f ++ ['\n']) () := by
  have e : ∀ y, fp_p_list [x, y] = _ := fun y => skip (intArg_prints hx) _
  rw [e]
  have hsmall : hi < 2147483647 := by
    by_contra hn
    have := hnel 31 (by omega)
    have h2 : 2 ^ 31 ≤ p ^ 31 := Nat.pow_le_pow_left (Fact.out : p.Prime).two_le _
    have h3 : 1 * p ^ 31 ≤ (p - 1) * p ^ 31 := Nat.mul_le_mul_right _ (by have := (Fact.out : p.Prime).two_le; omega)
    omega
  have := field_list (FpP.fref hp) (tool hp) h h0 (by unfold INT_MAX; omega)
    (fun n h1 h2 => C70_fp_poly_partial hp (n := n) (by omega) (hpow n h2) (hnel n h2))
  rwa [ZMod.card] at this

example : (fp_p_list ["3".toList, "0-1".toList]).run = ok ("1\n2\n10\n11\n12\n20\n21\n22\n".toList, .val ()) := by decide +kernel

end Spffl.Props.Cmd102
