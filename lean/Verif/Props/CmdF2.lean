import Verif.Proof.CmdPoly
import Verif.Props.Cmd
import Verif.Props.F2Poly
import Verif.Props.F2Factor
import Verif.Props.Units
import Verif.Props.Lists
import Verif.Props.LinAlg
import Verif.Props.Cyclo
import Verif.Props.VecText2
import Verif.Props.PolyText
import Verif.Props.BitText

/-!
# C101: the commands for polynomials over F2
-/

namespace Spffl.Props.Cmd101
open Res Scan Polynomial F2P Spffl.Cmd VText94

/-- A command that treats its arguments one after the other: what it prints is one text per argument, `line several x t` with `several`
true if there is more than one; at an argument that cannot be read it stops with status 1, after the texts of those before. -/
def PerArg {R : Type} (Lit : List Char → R → Prop) (A : List (List Char) → Prop) (Q : R → Prop)
    (line : Bool → R → List Char → Prop) (cmd : List (List Char) → Cmd Unit) : Prop :=
  (∀ args xs, A args → List.Forall₂ Lit args xs → (∀ x ∈ xs, Q x) →
    ∃ ts, List.Forall₂ (line (1 < args.length)) xs ts ∧ Prints (cmd args) ts.flatten ()) ∧
  (∀ pre bad post xs, A (pre ++ bad :: post) → List.Forall₂ Lit pre xs → (∀ x ∈ xs, Q x) → (∀ x, ¬ Lit bad x) →
    ∃ ts, List.Forall₂ (line (1 < (pre ++ bad :: post).length)) xs ts ∧ Exits (cmd (pre ++ bad :: post)) ts.flatten)

theorem perArg {R : Type} {Lit : List Char → R → Prop} {A : List (List Char) → Prop} {Q : R → Prop}
    {line : Bool → R → List Char → Prop} {cmd : List (List Char) → Cmd Unit} {body : Bool → List Char → Cmd Unit}
    (hc : ∀ args, A args → cmd args = args.forM (body (1 < args.length)))
    (hb : ∀ several cs x, Lit cs x → Q x → ∃ t, line several x t ∧ Prints (body several cs) t ())
    (hx : ∀ several cs, (∀ x, ¬ Lit cs x) → Exits (body several cs) []) : PerArg Lit A Q line cmd := by
  refine ⟨fun args xs ha h hq => ?_, fun pre bad post xs ha h hq hbad => ?_⟩
  · rw [hc args ha]
    exact forM_rel h hq (hb _)
  · rw [hc _ ha]
    exact forM_rel_exits h hq (hb _) (hx _ _ hbad)

/-! ### Text -/

/-- The hexadecimal digits of the polynomial, the least bit for the constant coefficient. -/
noncomputable def hex (f : (ZMod 2)[X]) : List Char := hexOf (nval f)

/-- Blanks, hexadecimal digits for `f`, and anything that does not begin with such a digit. -/
def IsHex (cs : List Char) (f : (ZMod 2)[X]) : Prop :=
  ∃ ws ds tail, cs = ws ++ ds ++ tail ∧ (∀ c ∈ ws, isBlank c = true) ∧ HexWord ds f ∧ ∀ c, tail.head? = some c → hexVal c = none

theorem isHex_hex (f : (ZMod 2)[X]) : IsHex (hex f) f :=
  ⟨[], hex f, [], by simp, by simp, ⟨hexOf_ne_nil _, allHex_hexOf _, (hexNum_hexOf _).symm⟩, by simp⟩

theorem read_hex {cs : List Char} {f : (ZMod 2)[X]} (h : IsHex cs f) : ∃ a, f2FromString cs = ok (some a) ∧ PRep a f := by
  obtain ⟨ws, ds, tail, rfl, hw, ⟨h1, h2, h3⟩, ht⟩ := h
  obtain ⟨r, e1, e2, e3, e4, -⟩ := read_ok hw h1 h2 ht
  refine ⟨r.1, ?_, e3, nval_inj (by rw [e2, h3])⟩
  unfold f2FromString
  rw [e1, ok_bind, e4]
  rfl

theorem exists_nval (n : ℕ) : ∃ f : (ZMod 2)[X], nval f = n := by
  obtain ⟨r, -, h, -⟩ := read_ok (ws := []) (rest := []) (by simp) (hexOf_ne_nil n) (allHex_hexOf n) (by simp)
  exact ⟨_, by rw [h, hexNum_hexOf]⟩

theorem read_no {cs : List Char} (h : ∀ f, ¬ IsHex cs f) : f2FromString cs = ok none := by
  have hd : cs = cs.takeWhile isBlank ++ cs.dropWhile isBlank := (List.takeWhile_append_dropWhile).symm
  have hw : ∀ c ∈ cs.takeWhile isBlank, isBlank c = true := fun c hc => List.mem_takeWhile_imp hc
  have hr : ∀ c, (cs.dropWhile isBlank).head? = some c → hexVal c = none ∧ isBlank c = false := by
    intro c hc
    refine ⟨?_, ?_⟩
    · by_contra hx
      set r := cs.dropWhile isBlank with hr
      have h1 : r = r.takeWhile (fun c => (hexVal c).isSome) ++ r.dropWhile (fun c => (hexVal c).isSome) :=
        (List.takeWhile_append_dropWhile).symm
      obtain ⟨f, hf⟩ := exists_nval (hexNum (r.takeWhile fun c => (hexVal c).isSome) 0)
      refine h f ⟨cs.takeWhile isBlank, r.takeWhile (fun c => (hexVal c).isSome), r.dropWhile (fun c => (hexVal c).isSome),
        by rw [List.append_assoc, ← h1]; exact hd, hw, ⟨?_, fun c hc => List.mem_takeWhile_imp (p := fun c => (hexVal c).isSome) hc, hf⟩, ?_⟩
      · cases hcs : r with
        | nil => rw [hcs] at hc; cases hc
        | cons d l =>
          rw [hcs] at hc
          cases hc
          rw [List.takeWhile_cons, if_pos (Option.isSome_iff_ne_none.2 hx)]
          simp
      · intro d hd'
        have := List.head?_dropWhile_not (fun c => (hexVal c).isSome) r
        rw [hd'] at this
        simpa using this
    · have := List.head?_dropWhile_not isBlank cs
      rw [hc] at this
      simpa using this
  obtain ⟨r, e1, e2⟩ := read_fail hw hr
  rw [← hd] at e1
  unfold f2FromString
  rw [e1, ok_bind, e2]
  rfl

variable (M : ℕ → BitVec 64)

/-- The mask of `bit_vector_t::trim`, whatever its values are. -/
abbrev msk : TrimMask := fun k => ok (M k)

theorem tool : ToolRef (f2Tool (msk M)) PRep IsHex hex where
  read := read_hex
  sh := by
    rintro a x ⟨h, rfl⟩
    exact print_ok h.ne_nil

/-- C101: reading and writing: every text is either read as one polynomial, or refused; what is printed is read as what it was. -/
theorem C101_text : (∀ cs f g, IsHex cs f → IsHex cs g → f = g) ∧
    (∀ cs f, IsHex cs f → ∃ a, f2FromString cs = ok (some a) ∧ F2P.print a = ok (hex f)) ∧
    (∀ cs, (∀ f, ¬ IsHex cs f) → f2FromString cs = ok none) ∧ ∀ f, IsHex (hex f) f := by
  refine ⟨fun cs f g hf hg => ?_, fun cs f h => ?_, fun cs h => read_no h, isHex_hex⟩
  · obtain ⟨a, h1, h2⟩ := read_hex hf
    obtain ⟨b, h3, h4⟩ := read_hex hg
    rw [h1] at h3
    cases h3
    rw [← h2.2, h4.2]
  · obtain ⟨a, h1, h2⟩ := read_hex h
    exact ⟨a, h1, (tool 0).sh h2⟩

example : f2FromString " 1fg".toList = ok (some [0x1f#64]) ∧ f2FromString "0x1f".toList = ok (some [0#64]) ∧
    f2FromString "g".toList = ok none ∧ f2FromString "".toList = ok none := by decide +kernel

theorem readArg_no {cs : List Char} (h : ∀ f, ¬ IsHex cs f) : Exits (readArg f2FromString cs) [] := readArg_exits (read_no h)

/-! ### f2_p_deg -/

/-- C101, f2_p_deg: the degree of each polynomial (0 for the zero polynomial). -/
theorem C101_deg : PerArg IsHex (fun _ => True) (fun _ => True)
    (fun several f t => t = lab several (hex f) ": ".toList ++ showNat f.natDegree ++ ['\n']) (f2_p_deg (msk M)) := by
  refine perArg (body := deg1 (f2Tool (msk M))) (fun _ _ => rfl) (fun several cs f h _ => ⟨_, rfl, ?_⟩) (fun several cs h => (readArg_no h).bind)
  refine (deg1_prints (tool M) h (d := f.natDegree) ?_).of_eq (by rw [Cmd100.showInt_nat])
  rintro a ⟨ha, rfl⟩
  show (do let d ← F2P.find_degree a; ok (d : Int)) = _
  rw [find_degree_ok, ok_bind]

example : (f2_p_deg (fun _ => ok 5#64) ["1f".toList, "100000000000000000".toList]).run =
    ok ("1f: 4\n100000000000000000: 68\n".toList, .val ()) := by decide +kernel

/-! ### f2_p_gcd, f2_p_lcm -/

theorem not_hex {c : Char} {cs : List Char} (h1 : isBlank c = false) (h2 : hexVal c = none) (f : (ZMod 2)[X]) : ¬ IsHex (c :: cs) f := by
  rintro ⟨ws, ds, tail, e, hw, ⟨hne, hd, -⟩, -⟩
  cases ws with
  | cons w ws =>
    simp only [List.cons_append, List.cons.injEq] at e
    have := hw w (by simp)
    rw [← e.1, h1] at this
    cases this
  | nil =>
    cases ds with
    | nil => exact hne rfl
    | cons d ds =>
      simp only [List.nil_append, List.cons_append, List.cons.injEq] at e
      have := hd d (by simp)
      rw [← e.1, h2] at this
      cases this

theorem gcd_step {a b : F2P} {x y : (ZMod 2)[X]} (ha : PRep a x) (hb : PRep b y) :
    ∃ c z, F2P.gcd a b = ok c ∧ PRep c z ∧ ∀ d, d ∣ z ↔ d ∣ x ∧ d ∣ y := by
  obtain ⟨d, h1, h2, h3, h4, h5⟩ := C21_gcd a b ha.1 hb.1
  rw [ha.2] at h2 h4
  rw [hb.2] at h3 h4
  exact ⟨d, toPoly d, h1, ⟨h5, rfl⟩, fun e => ⟨fun h => ⟨h.trans h2, h.trans h3⟩, fun h => h4 e h.1 h.2⟩⟩

theorem gcd_eq {args : List (List Char)} (h : args.head? ≠ some "-e".toList) :
    f2_p_gcd (msk M) args = foldPolyCmd (f2Tool (msk M)) F2P.gcd args := by
  unfold f2_p_gcd
  split
  · exact absurd rfl h
  · exact absurd rfl h
  · rfl

theorem head_ne {args : List (List Char)} {fs : List (ZMod 2)[X]} (h : List.Forall₂ IsHex args fs) {c : Char} {w : List Char}
    (h1 : isBlank c = false) (h2 : hexVal c = none) : args.head? ≠ some (c :: w) := by
  cases h with
  | nil => simp
  | cons h _ =>
    intro e
    simp only [List.head?_cons, Option.some.injEq] at e
    subst e
    exact not_hex h1 h2 _ h

theorem gcd_inv {fs : List (ZMod 2)[X]} : ∀ pre y post, fs = pre ++ y :: post → ∀ a b g, PRep a g → (∀ d, d ∣ g ↔ ∀ f ∈ pre, d ∣ f) → PRep b y →
      ∃ c z, F2P.gcd a b = ok c ∧ PRep c z ∧ ∀ d, d ∣ z ↔ ∀ f ∈ pre ++ [y], d ∣ f := by
  intro pre y post _ a b g ha hI hb
  obtain ⟨c, z, h1, h2, h3⟩ := gcd_step ha hb
  refine ⟨c, z, h1, h2, fun d => ?_⟩
  rw [h3, hI]
  simp only [List.mem_append, List.mem_singleton]
  constructor
  · rintro ⟨h4, h5⟩ f (hf | rfl)
    · exact h4 f hf
    · exact h5
  · intro h
    exact ⟨fun f hf => h f (.inl hf), h y (.inr rfl)⟩

/-- C101, f2_p_gcd: the greatest common divisor of any number of polynomials; without arguments, and at an argument that is no
polynomial, status 1 and nothing printed. -/
theorem C101_gcd : (∀ args fs, args ≠ [] → List.Forall₂ IsHex args fs →
      ∃ g, Prints (f2_p_gcd (msk M) args) (hex g ++ ['\n']) () ∧ ∀ d, d ∣ g ↔ ∀ f ∈ fs, d ∣ f) ∧
    (∀ pre bad post fs, (pre ++ bad :: post).head? ≠ some "-e".toList → List.Forall₂ IsHex pre fs → (∀ f, ¬ IsHex bad f) →
      Exits (f2_p_gcd (msk M) (pre ++ bad :: post)) []) ∧ Exits (f2_p_gcd (msk M) []) [] := by
  refine ⟨fun args fs hne h => ?_, fun pre bad post fs hh h hb => ?_, rfl⟩
  · rw [gcd_eq M (head_ne h (by decide) (by decide))]
    cases h with
    | nil => exact absurd rfl hne
    | cons h1 h2 => exact foldPolyCmd_prints (tool M) (I := fun l g => ∀ d, d ∣ g ↔ ∀ f ∈ l, d ∣ f) h1 h2 (by simp) gcd_inv
  · rw [gcd_eq M hh]
    cases h with
    | nil => exact (readArg_no hb).bind
    | cons h1 h2 =>
      exact foldPolyCmd_exits (tool M) (I := fun l g => ∀ d, d ∣ g ↔ ∀ f ∈ l, d ∣ f) h1 h2 (read_no hb) (by simp) gcd_inv

example : (f2_p_gcd (fun _ => ok 5#64) ["c".toList, "14".toList, "0".toList]).run = ok ("c\n".toList, .val ()) ∧
    (f2_p_gcd (fun _ => ok 5#64) ["c".toList, "x".toList]).run = ok ([], .exit1) := by decide +kernel

/-- C101, f2_p_gcd -e: the printed line is a true equation, with the greatest common divisor on the left; the command's own test of it
never fails.  With other than two polynomials, status 1. -/
theorem C101_ext_gcd : (∀ x y u v, IsHex x u → IsHex y v →
      ∃ g r s, Prints (f2_p_gcd (msk M) ["-e".toList, x, y]) (hex g ++ " = ".toList ++ hex r ++ " * ".toList ++ hex u ++ " + ".toList ++
          hex s ++ " * ".toList ++ hex v ++ ['\n']) () ∧ g = r * u + s * v ∧ ∀ d, d ∣ g ↔ d ∣ u ∧ d ∣ v) ∧
    (∀ x y, (∀ f, ¬ IsHex x f) ∨ (∃ u, IsHex x u) ∧ (∀ f, ¬ IsHex y f) → Exits (f2_p_gcd (msk M) ["-e".toList, x, y]) []) ∧
    (∀ args, args.length ≠ 2 → Exits (f2_p_gcd (msk M) ("-e".toList :: args)) []) := by
  refine ⟨fun x y u v hx hy => ?_, fun x y h => ?_, fun args h => ?_⟩
  · obtain ⟨g, r, s, h1, h2, h3⟩ := extCmd_prints (tool M) (test := true) hx hy
      (P := fun g r s => g = r * u + s * v ∧ ∀ d, d ∣ g ↔ d ∣ u ∧ d ∣ v) (by
      rintro a b ⟨ha, rfl⟩ ⟨hb, rfl⟩
      obtain ⟨⟨d, m, n⟩, e0, e1, e2, e3, e4, e5⟩ := ext_gcd_ok ha hb
      dsimp only at e1 e2 e3 e4 e5
      obtain ⟨k, f1, f2, f3⟩ := mul_ok (b := m) ha
      obtain ⟨l, g1, g2, g3⟩ := mul_ok (b := n) hb
      obtain ⟨c, k1, k2, k3⟩ := add_ok (b := l) f3.1
      refine ⟨d, m, n, _, _, _, e0, ⟨e3, rfl⟩, ⟨e4, rfl⟩, ⟨e5, rfl⟩, ⟨by rw [e2]; ring, fun e => ⟨fun h => ⟨h.trans e1.1, h.trans e1.2.1⟩,
        fun h => e1.2.2 e h.1 h.2⟩⟩, fun _ => ⟨k, l, c, f1, g1, k1, ?_⟩⟩
      show F2P.ne d c = _
      rw [F2Mod.ne_ok e3.ne_nil k3.ne_nil, k2, f2, g2, ← e2]
      simp)
    exact ⟨g, r, s, h1, h2, h3⟩
  · rcases h with h | ⟨⟨u, hu⟩, h⟩
    · exact (readArg_no h).bind
    · obtain ⟨a, ha, -⟩ := read_hex hu
      exact (readArg_prints ha).then_exits (readArg_no h).bind
  · match args, h with
    | [], _ => rfl
    | [_], _ => rfl
    | [_, _], h => exact absurd rfl h
    | _ :: _ :: _ :: _, _ => rfl

example : (f2_p_gcd (fun _ => ok 5#64) ["-e".toList, "7".toList, "13".toList]).run = ok ("1 = 6 * 7 + 1 * 13\n".toList, .val ()) := by
  decide +kernel

theorem lcm_step {a b : F2P} {x y : (ZMod 2)[X]} (ha : PRep a x) (hb : PRep b y) (h0 : x ≠ 0 ∨ y ≠ 0) :
    ∃ c z, lcmOp (f2Tool (msk M)) a b = ok c ∧ PRep c z ∧ ∀ d, z ∣ d ↔ x ∣ d ∧ y ∣ d := by
  obtain ⟨g, z, h1, h2, h3⟩ := gcd_step ha hb
  obtain ⟨m, e1, e2, e3⟩ := mul_ok (b := b) ha.1
  have hz : z ≠ 0 := by
    rintro rfl
    have := (h3 0).1 dvd_rfl
    rw [zero_dvd_iff, zero_dvd_iff] at this
    rcases h0 with h | h
    · exact h this.1
    · exact h this.2
  obtain ⟨c, f1, f2, f3⟩ := div_ok e3 h2.1.ne_nil (by rw [h2.2]; exact hz)
  refine ⟨c, toPoly c, ?_, ⟨f3, rfl⟩, ?_⟩
  · show (do let m ← F2P.mul a b; let g ← F2P.gcd a b; F2P.div m g) = _
    rw [e1, ok_bind, h1, ok_bind, f1]
  · rw [f2, e2, h2.2, ha.2, hb.2]
    refine lcm_of_gcd hz h3 ?_
    obtain ⟨x', hx⟩ := ((h3 z).1 dvd_rfl).1
    have hq : x * y / z = x' * y := by
      rw [hx, show z * x' * y = z * (x' * y) by ring]
      exact mul_div_cancel_left₀ _ hz
    rw [hq, hx]
    ring

theorem lcm_inv {fs : List (ZMod 2)[X]} (hp : fs.Pairwise fun x y => x ≠ 0 ∨ y ≠ 0) : ∀ pre y post, fs = pre ++ y :: post → ∀ a b g, PRep a g →
    (∀ d, g ∣ d ↔ ∀ f ∈ pre, f ∣ d) → PRep b y → ∃ c z, lcmOp (f2Tool (msk M)) a b = ok c ∧ PRep c z ∧ ∀ d, z ∣ d ↔ ∀ f ∈ pre ++ [y], f ∣ d := by
  rintro pre y post rfl a b g ha hI hb
  have h0 : g ≠ 0 ∨ y ≠ 0 := by
    by_contra h
    push Not at h
    obtain ⟨rfl, rfl⟩ := h
    have h1 : ∀ f ∈ pre, f ≠ 0 := fun f hf => by
      have := (List.pairwise_append.1 hp).2.2 f hf 0 (by simp)
      simpa using this
    have h2 : pre.prod ≠ 0 := List.prod_ne_zero fun h0 => h1 0 h0 rfl
    exact h2 (zero_dvd_iff.1 ((hI _).2 fun f hf => List.dvd_prod hf))
  obtain ⟨c, z, h1, h2, h3⟩ := lcm_step M ha hb h0
  refine ⟨c, z, h1, h2, fun d => ?_⟩
  rw [h3, hI]
  simp only [List.mem_append, List.mem_singleton]
  constructor
  · rintro ⟨h4, h5⟩ f (hf | rfl)
    · exact h4 f hf
    · exact h5
  · intro h
    exact ⟨fun f hf => h f (.inl hf), h y (.inr rfl)⟩

/-- C101, f2_p_lcm: the least common multiple, if at most one of the polynomials is zero. -/
theorem C101_lcm_partial : (∀ args fs, args ≠ [] → List.Forall₂ IsHex args fs → (fs.Pairwise fun x y => x ≠ 0 ∨ y ≠ 0) →
      ∃ l, Prints (f2_p_lcm (msk M) args) (hex l ++ ['\n']) () ∧ ∀ d, l ∣ d ↔ ∀ f ∈ fs, f ∣ d) ∧
    (∀ pre bad post fs, List.Forall₂ IsHex pre fs → (fs.Pairwise fun x y => x ≠ 0 ∨ y ≠ 0) → (∀ f, ¬ IsHex bad f) →
      Exits (f2_p_lcm (msk M) (pre ++ bad :: post)) []) ∧ Exits (f2_p_lcm (msk M) []) [] := by
  refine ⟨fun args fs hne h hp => ?_, fun pre bad post fs h hp hb => ?_, rfl⟩
  · cases h with
    | nil => exact absurd rfl hne
    | cons h1 h2 =>
      exact foldPolyCmd_prints (tool M) (I := fun l g => ∀ d, g ∣ d ↔ ∀ f ∈ l, f ∣ d) h1 h2 (by simp) (lcm_inv M hp)
  · cases h with
    | nil => exact (readArg_no hb).bind
    | cons h1 h2 =>
      exact foldPolyCmd_exits (tool M) (I := fun l g => ∀ d, g ∣ d ↔ ∀ f ∈ l, f ∣ d) h1 h2 (read_no hb) (by simp) (lcm_inv M hp)

theorem lcm_zero {a b : F2P} (ha : PRep a 0) (hb : PRep b 0) : lcmOp (f2Tool (msk M)) a b = .throw := by
  obtain ⟨g, z, h1, h2, h3⟩ := gcd_step ha hb
  obtain ⟨m, e1, e2, e3⟩ := mul_ok (b := b) ha.1
  have hz : z = 0 := by simpa using (h3 0).2 (by simp)
  subst hz
  show (do let m ← F2P.mul a b; let g ← F2P.gcd a b; F2P.div m g) = _
  rw [e1, ok_bind, h1, ok_bind]
  unfold F2P.div
  rw [quot_and_rem_throw h2.1.ne_nil h2.2]
  rfl

/-- C101, f2_p_lcm: with two zero polynomials among the arguments it throws, although 0 is their least common multiple. -/
theorem C101_violated_lcm {args : List (List Char)} {fs : List (ZMod 2)[X]} (h : List.Forall₂ IsHex args fs)
    (hz : ¬ fs.Pairwise fun x y => x ≠ 0 ∨ y ≠ 0) : ThrowsC (f2_p_lcm (msk M) args) [] ∧ ∀ d, 0 ∣ d ↔ ∀ f ∈ fs, f ∣ d := by
  obtain ⟨pre, post, rfl, h1, h2⟩ := two_zeros fs hz
  refine ⟨?_, fun d => ⟨fun hd f _ => (zero_dvd_iff.1 hd).symm ▸ dvd_zero f, fun hd => hd 0 (by simp)⟩⟩
  obtain ⟨pa, r, rfl, hpa, hr⟩ := forall₂_split h
  cases hr with
  | @cons bad _ r _ hbad hr =>
  cases hpa with
  | nil => simp at h2
  | @cons x0 x pa pre hx hpa =>
    refine foldPolyCmd_throws (tool M) (I := fun l g => ∀ d, g ∣ d ↔ ∀ f ∈ l, f ∣ d) hx hpa hbad (by simp) (lcm_inv M h1) ?_
    intro a b g ha hI hb
    have hg : g = 0 := zero_dvd_iff.1 ((hI g).1 dvd_rfl 0 h2)
    subst hg
    exact lcm_zero M ha hb

example : (f2_p_lcm (fun _ => ok 5#64) ["6".toList, "5".toList]).run = ok ("a\n".toList, .val ()) ∧
    (f2_p_lcm (fun _ => ok 5#64) ["6".toList, "0".toList, "5".toList, "0".toList]).run = ok ([], .thrown) := by decide +kernel

/-! ### f2_p_totient -/

/-- C101, f2_p_totient: the number of units modulo each polynomial, if it is less than 2^31 - 1.  Missing: the zero polynomial and
larger numbers (C58_violated). -/
theorem C101_totient_partial : PerArg IsHex (fun args => args ≠ [])
    (fun f => f ≠ 0 ∧ (f.natDegree : Int) ≤ INT_MAX ∧ Nat.card (AdjoinRoot f)ˣ < 2147483647)
    (fun several f t => t = lab several (hex f) ": ".toList ++ showNat (Nat.card (AdjoinRoot f)ˣ) ++ ['\n']) (f2_p_totient (msk M)) := by
  refine perArg (body := totient1 (f2Tool (msk M))) (fun args h => ?_) (fun several cs f h hq => ⟨_, rfl, ?_⟩)
    (fun several cs h => (readArg_no h).bind)
  · unfold f2_p_totient
    rw [if_neg (by have := List.length_pos_iff.2 h; omega)]
  refine (totient1_prints (tool M) h (d := Nat.card (AdjoinRoot f)ˣ) ?_).of_eq (by rw [Cmd100.showInt_nat])
  rintro a ⟨ha, rfl⟩
  obtain ⟨h0, h1, h2⟩ := hq
  by_cases hd : (toPoly a).natDegree = 0
  · have hone : toPoly a = 1 := by
      obtain ⟨c, hc⟩ := natDegree_eq_zero.1 hd
      have : c = 1 := by
        have hc0 : c ≠ 0 := by rintro rfl; rw [C_0] at hc; exact h0 hc.symm
        exact (by decide : ∀ c : ZMod 2, c ≠ 0 → c = 1) c hc0
      rw [← hc, this, C_1]
    have hs : Subsingleton (AdjoinRoot (toPoly a)) := by
      rw [hone]
      exact Ideal.Quotient.subsingleton_iff.2 (Ideal.span_singleton_one)
    have hu : Nat.card (AdjoinRoot (toPoly a))ˣ = 1 := Nat.card_unique
    rw [hu]
    show F2P.totient (msk M) a = _
    obtain ⟨fi, e1, e2, -⟩ := C53_constant (msk M) ha hd
    unfold F2P.totient
    rw [e1, ok_bind, e2]
    rfl
  · exact C58_totient_total_partial M ha (by omega) h1 h2

theorem C101_totient_empty : Exits (f2_p_totient (msk M) []) [] := rfl

example : (f2_p_totient (fun _ => ok 5#64) ["6".toList, "13".toList]).run = ok ("6: 1\n13: 15\n".toList, .val ()) := by decide +kernel

/-! ### f2_p_test -/

/-- `w` is `a` if `P` holds, and `b` otherwise. -/
def Says (P : Prop) (a b w : List Char) : Prop := (P ∧ w = a) ∨ (¬ P ∧ w = b)

theorem says_of {P : Prop} {r : Bool} (h : r = true ↔ P) (a b : List Char) : Says P a b (if r then a else b) := by
  cases r
  · exact .inr ⟨fun hp => Bool.false_ne_true (h.2 hp), rfl⟩
  · exact .inl ⟨h.1 rfl, rfl⟩

theorem test_eq {k x : List Char} {r : List (List Char)} {irr prim : Bool} (hk : f2Kind k = pure (irr, prim)) :
    f2_p_test (msk M) (k :: x :: r) = (x :: r).forM (f2_p_test1 (msk M) irr prim) := by
  show (f2Kind k >>= fun q => (x :: r).forM (f2_p_test1 (msk M) q.1 q.2)) = _
  rw [hk]
  exact pure_bind _ _

theorem yes_prints {c : Bool} {m n : Cmd Unit} {t : List Char} (hc : c = true) (h : Prints m t ()) : Prints (if c then m else n) t () := by
  rw [if_pos hc]; exact h

theorem no_prints {c : Bool} {m : Cmd Unit} (hc : c = false) : Prints (if c then m else pure ()) [] () := by
  rw [if_neg (by simp [hc])]; exact prints_pure ()

/-- C101, f2_p_test -i: whether each polynomial is irreducible. -/
theorem C101_test_irr : PerArg IsHex (fun args => args ≠ []) (fun f => (f.natDegree : Int) ≤ INT_MAX)
    (fun _ f t => ∃ w, Says (Irreducible f) "IRREDUCIBLE".toList "reducible".toList w ∧ t = hex f ++ ": ".toList ++ w ++ ['\n'])
    (fun args => f2_p_test (msk M) ("-i".toList :: args)) := by
  refine perArg (body := fun _ => f2_p_test1 (msk M) true false) (fun args h => ?_) (fun several cs f h hq => ?_)
    (fun several cs h => (readArg_no h).bind)
  · obtain ⟨x, r, rfl⟩ := List.exists_cons_of_ne_nil h
    exact test_eq M rfl
  · obtain ⟨a, h1, h2⟩ := read_hex h
    obtain ⟨b, e1, e2⟩ := C54_is_irreducible_total M h2.1 (by rw [h2.2]; exact hq)
    rw [h2.2] at e2
    refine ⟨_, ⟨_, says_of e2 _ _, rfl⟩, ?_⟩
    unfold f2_p_test1
    exact ((readArg_prints h1).then ((putLabel_prints true _ ((tool M).sh h2)).bind ((yes_prints rfl ((prints_lift e1).then (prints_out _))).bind
      ((no_prints rfl).bind ((no_prints rfl).bind (prints_out _)))))).of_eq (by simp only [lab, if_true, List.append_assoc, List.nil_append, List.append_nil, List.cons_append])

/-- C101, f2_p_test -p: whether x generates the units modulo each polynomial.  Missing: degrees above 30. -/
theorem C101_test_prim_partial : PerArg IsHex (fun args => args ≠ []) (fun f => f ≠ 0 ∧ f.natDegree ≤ 30)
    (fun _ f t => ∃ w, Says (GenUnits (AdjoinRoot.root f)) "PRIMITIVE".toList "imprimitive".toList w ∧
      t = hex f ++ ": ".toList ++ w ++ ['\n'])
    (fun args => f2_p_test (msk M) ("-p".toList :: args)) := by
  refine perArg (body := fun _ => f2_p_test1 (msk M) false true) (fun args h => ?_) (fun several cs f h hq => ?_)
    (fun several cs h => (readArg_no h).bind)
  · obtain ⟨x, r, rfl⟩ := List.exists_cons_of_ne_nil h
    exact test_eq M rfl
  · obtain ⟨a, h1, h2⟩ := read_hex h
    obtain ⟨ha, rfl⟩ := h2
    obtain ⟨b, e1, e2⟩ := C62_is_primitive_30 M ha hq.1 hq.2
    refine ⟨_, ⟨_, says_of e2 _ _, rfl⟩, ?_⟩
    unfold f2_p_test1
    exact ((readArg_prints h1).then ((putLabel_prints true _ ((tool M).sh ⟨ha, rfl⟩)).bind ((no_prints rfl).bind
      ((no_prints rfl).bind ((yes_prints rfl ((prints_lift e1).then (prints_out _))).bind (prints_out _)))))).of_eq (by simp only [lab, if_true, List.append_assoc, List.nil_append, List.append_nil, List.cons_append])

/-- C101, f2_p_test -ip: both, on one line. -/
theorem C101_test_both_partial : PerArg IsHex (fun args => args ≠ []) (fun f => f ≠ 0 ∧ f.natDegree ≤ 30)
    (fun _ f t => ∃ v w, Says (Irreducible f) "IRREDUCIBLE".toList "reducible".toList v ∧
      Says (GenUnits (AdjoinRoot.root f)) "PRIMITIVE".toList "imprimitive".toList w ∧ t = hex f ++ ": ".toList ++ v ++ ' ' :: w ++ ['\n'])
    (fun args => f2_p_test (msk M) ("-ip".toList :: args)) := by
  refine perArg (body := fun _ => f2_p_test1 (msk M) true true) (fun args h => ?_) (fun several cs f h hq => ?_)
    (fun several cs h => (readArg_no h).bind)
  · obtain ⟨x, r, rfl⟩ := List.exists_cons_of_ne_nil h
    exact test_eq M rfl
  · obtain ⟨a, h1, h2⟩ := read_hex h
    obtain ⟨ha, rfl⟩ := h2
    obtain ⟨b, e1, e2⟩ := C62_is_primitive_30 M ha hq.1 hq.2
    obtain ⟨c, e3, e4⟩ := C54_is_irreducible_total M ha (by unfold INT_MAX; omega)
    refine ⟨_, ⟨_, _, says_of e4 _ _, says_of e2 _ _, rfl⟩, ?_⟩
    unfold f2_p_test1
    exact ((readArg_prints h1).then ((putLabel_prints true _ ((tool M).sh ⟨ha, rfl⟩)).bind ((yes_prints rfl ((prints_lift e3).then (prints_out _))).bind
      ((yes_prints rfl (prints_out _)).bind ((yes_prints rfl ((prints_lift e1).then (prints_out _))).bind (prints_out _)))))).of_eq (by simp only [lab, if_true, List.append_assoc, List.nil_append, List.append_nil, List.cons_append])

/-- C101, f2_p_test: without a polynomial, or with another first argument, status 1. -/
theorem C101_test_usage (k : List Char) (args : List (List Char))
    (h : args = [] ∨ k ∉ ["-i".toList, "-p".toList, "-ip".toList]) : Exits (f2_p_test (msk M) (k :: args)) [] ∧
      Exits (f2_p_test (msk M) []) [] := by
  refine ⟨?_, rfl⟩
  cases args with
  | nil => rfl
  | cons x r =>
    have hk : f2Kind k = exit1 := by
      unfold f2Kind
      split
      · simp at h
      · simp at h
      · simp at h
      · rfl
    show Exits (f2Kind k >>= fun q => (x :: r).forM (f2_p_test1 (msk M) q.1 q.2)) []
    rw [hk]
    exact exits_exit1.bind

example : (f2_p_test (fun _ => ok 5#64) ["-ip".toList, "1f".toList, "6".toList]).run =
    ok ("1f: IRREDUCIBLE imprimitive\n6: reducible imprimitive\n".toList, .val ()) := by decide +kernel

/-! ### f2_p_find -/

theorem find_eq {k cs : List Char} {irr prim : Bool} (hk : f2Kind k = pure (irr, prim)) :
    f2_p_find (msk M) [k, cs] = degrees (f2_p_find1 (msk M) irr prim) cs := by
  show (f2Kind k >>= fun q => degrees (f2_p_find1 (msk M) q.1 q.2) cs) = _
  rw [hk]
  exact pure_bind _ _

/-- One polynomial for each degree from `lo` to `hi`, the least with `P`, one per line. -/
def LeastEach (P : ℕ → (ZMod 2)[X] → Prop) (lo hi : Int) (t : List Char) : Prop :=
  ∃ g : Int → (ZMod 2)[X], (∀ n, lo ≤ n → n ≤ hi → P n.toNat (g n) ∧ ∀ p, P n.toNat p → nval (g n) ≤ nval p) ∧
    t = (List.range (hi - lo + 1).toNat).flatMap fun i : ℕ => hex (g (lo + i)) ++ ['\n']

theorem leastEach {P : ℕ → (ZMod 2)[X] → Prop} {body : Int → Cmd Unit} {cs : List Char} {lo hi : Int} (h : IsRange cs lo hi)
    (hhi : hi < INT_MAX)
    (hb : ∀ n, lo ≤ n → n ≤ hi → ∃ g, (P n.toNat g ∧ ∀ p, P n.toNat p → nval g ≤ nval p) ∧ Prints (body n) (hex g ++ ['\n']) ()) :
    ∃ t, LeastEach P lo hi t ∧ Prints (degrees body cs) t () := by
  choose! g h1 h2 using hb
  exact ⟨_, ⟨g, h1, rfl⟩, degrees_prints h hhi h2⟩

/-- Irreducible of degree `n`, with constant coefficient. -/
def IrrOdd (n : ℕ) (f : (ZMod 2)[X]) : Prop := Irreducible f ∧ f.natDegree = n ∧ f.coeff 0 ≠ 0

/-- C101, f2_p_find -1 -i: for each degree the least irreducible polynomial with constant coefficient; degrees less than one are an
uncaught exception. -/
theorem C101_find_irr {cs : List Char} {lo hi : Int} (h : IsRange cs lo hi) :
    (1 ≤ lo → hi < INT_MAX → ∃ t, LeastEach IrrOdd lo hi t ∧ Prints (f2_p_find (msk M) ["-i".toList, cs]) t ()) ∧
    (lo < 1 → lo ≤ hi → ThrowsC (f2_p_find (msk M) ["-i".toList, cs]) []) := by
  rw [find_eq M rfl]
  refine ⟨fun h1 h2 => leastEach h h2 fun n hn1 hn2 => ?_, fun h1 h2 => ?_⟩
  · lift n to ℕ using by omega
    obtain ⟨r, e1, e2, e3, e4, e5, e6⟩ := sat_false.1 (C55_odd (some_mask M) (d := n) (by omega) (by omega))
    refine ⟨toPoly r, ⟨⟨e3, e4, e5⟩, fun p hp => e6 p hp.1 hp.2.1 hp.2.2⟩, ?_⟩
    unfold f2_p_find1
    exact (prints_lift e1).then (putLine_prints ((tool M).sh ⟨e2, rfl⟩))
  · refine (degrees_throws (txt := fun _ => []) h le_rfl h2 (fun n h3 h4 => by omega) ?_).of_eq (by simp)
    unfold f2_p_find1
    exact (throws_lift (C55_nonpositive _ h1)).bind

/-- C101, f2_p_find -1 -p and -1 -ip: for each degree the least polynomial modulo which x generates the units (and that is irreducible).
Missing: degrees above 30. -/
theorem C101_find_prim_partial {cs k : List Char} {irr : Bool} (hk : k = (if irr then "-ip".toList else "-p".toList)) {lo hi : Int}
    (h : IsRange cs lo hi) :
    (1 ≤ lo → hi ≤ 30 → ∃ t, LeastEach (PrimOfDegree irr) lo hi t ∧ Prints (f2_p_find (msk M) [k, cs]) t ()) ∧
    (lo < 1 → lo ≤ hi → ThrowsC (f2_p_find (msk M) [k, cs]) []) := by
  have hk' : f2Kind k = pure (irr, true) := by
    subst hk
    cases irr <;> rfl
  rw [find_eq M hk']
  refine ⟨fun h1 h2 => leastEach h (by unfold INT_MAX; omega) fun n hn1 hn2 => ?_, fun h1 h2 => ?_⟩
  · lift n to ℕ using by omega
    obtain ⟨r, e1, e2, e3, e4⟩ := C79_find_prim_total M irr (d := n) (by omega) (by omega)
    refine ⟨toPoly r, ⟨e3, e4⟩, ?_⟩
    unfold f2_p_find1
    exact (prints_lift e1).then (putLine_prints ((tool M).sh ⟨e2, rfl⟩))
  · refine (degrees_throws (txt := fun _ => []) h le_rfl h2 (fun n h3 h4 => by omega) ?_).of_eq (by simp)
    unfold f2_p_find1
    exact (throws_lift (C79_find_prim_nonpositive _ irr h1)).bind

example : (f2_p_find (fun _ => ok 5#64) ["-i".toList, "1-8".toList]).run =
    ok ("3\n7\nb\n13\n25\n43\n83\n11b\n".toList, .val ()) ∧
    (f2_p_find (fun _ => ok 5#64) ["-ip".toList, "8".toList]).run = ok ("11d\n".toList, .val ()) := by decide +kernel

/-! ### f2_p_period -/

/-- C101, f2_p_period: the order of x modulo each polynomial, and 0 if x divides it.  Missing: degrees above 15. -/
theorem C101_period_partial : PerArg IsHex (fun _ => True) (fun f => f ≠ 0 ∧ f.natDegree ≤ 15)
    (fun several f t => ∃ n : ℕ, (X ∣ f ∧ n = 0 ∨ ¬ X ∣ f ∧ n = orderOf (AdjoinRoot.root f)) ∧
      t = lab several (hex f) ": ".toList ++ showNat n ++ ['\n']) (f2_p_period (msk M)) := by
  refine perArg (body := f2_p_period1 (msk M)) (fun _ _ => rfl) (fun several cs f h hq => ?_) (fun several cs h => (readArg_no h).bind)
  obtain ⟨a, h1, ha, rfl⟩ := read_hex h
  obtain ⟨e1, e2⟩ := C62_period_partial M ha hq.1 hq.2
  have key : ∀ n : ℕ, F2U.period (msk M) a = ok (n : Int) →
      Prints (f2_p_period1 (msk M) several cs) (lab several (hex (toPoly a)) ": ".toList ++ showNat n ++ ['\n']) () := by
    intro n hn
    unfold f2_p_period1
    exact ((readArg_prints h1).then ((putLabel_prints several _ ((tool M).sh ⟨ha, rfl⟩)).bind ((prints_lift hn).then
      (outLine_prints _)))).of_eq (by rw [Cmd100.showInt_nat]; simp)
  by_cases hx : X ∣ toPoly a
  · exact ⟨_, ⟨0, .inl ⟨hx, rfl⟩, rfl⟩, key 0 (e1 hx)⟩
  · exact ⟨_, ⟨_, .inr ⟨hx, rfl⟩, rfl⟩, key _ (e2 hx)⟩

example : (f2_p_period (fun _ => ok 5#64) ["6".toList, "1f".toList]).run = ok ("6: 0\n1f: 5\n".toList, .val ()) := by decide +kernel

/-! ### f2_p_factor, f2_p_divisors -/

/-- The factorization: for a constant the constant, otherwise powers of different irreducible polynomials in ascending order. -/
def Factored (f : (ZMod 2)[X]) (u : Option (ZMod 2)[X]) (l : List ((ZMod 2)[X] × ℕ)) : Prop :=
  (f.natDegree = 0 ∧ u = some f ∧ l = []) ∨
  (1 ≤ f.natDegree ∧ u = none ∧ l.Pairwise (fun p q => nval p.1 < nval q.1) ∧ (∀ q ∈ l, Irreducible q.1 ∧ 1 ≤ q.2) ∧
    (l.map fun q => q.1 ^ q.2).prod = f)

theorem factored {a : F2P} {f : (ZMod 2)[X]} (ha : PRep a f) (hd : (f.natDegree : Int) ≤ INT_MAX) :
    ∃ fi l u, F2P.factor (msk M) a = ok fi ∧ FacInfo.Den PRep fi l u ∧ Factored f u l := by
  obtain ⟨ha, rfl⟩ := ha
  by_cases h0 : (toPoly a).natDegree = 0
  · obtain ⟨⟨facs, unit⟩, e1, e2, e3⟩ := C53_constant (msk M) ha h0
    cases e2
    cases e3
    exact ⟨_, [], some (toPoly a), e1, ⟨.nil, .some ⟨ha, rfl⟩⟩, .inl ⟨h0, rfl, rfl⟩⟩
  · obtain ⟨⟨facs, unit⟩, e1, e2, l, e3, e4, e5, e6⟩ := C53_factor_total M ha (by omega) hd
    cases e2
    exact ⟨_, l, none, e1, ⟨e3.imp fun p q h => ⟨⟨h.1, h.2.1⟩, h.2.2⟩, .none⟩, .inr ⟨by omega, rfl, e4, e5, e6⟩⟩

theorem Factored.coprimes {f : (ZMod 2)[X]} {u : Option (ZMod 2)[X]} {l : List ((ZMod 2)[X] × ℕ)} (h : Factored f u l) : FacInfo.Coprimes l := by
  rcases h with ⟨-, -, rfl⟩ | ⟨-, -, h1, h2, -⟩
  · exact ⟨by simp, .nil⟩
  · refine ⟨fun q hq => (h2 q hq).1.prime, h1.imp_of_mem fun {p q} hp hq hlt hd => ?_⟩
    have := dvd_antisymm_F2 hd (((h2 p hp).1.associated_of_dvd (h2 q hq).1 hd).symm.dvd)
    rw [this] at hlt
    exact absurd hlt (lt_irrefl _)

theorem Factored.unit {f : (ZMod 2)[X]} {u : Option (ZMod 2)[X]} {l : List ((ZMod 2)[X] × ℕ)} (h : Factored f u l) :
    u.getD 1 * FacInfo.pprodR l = f ∧ (l ≠ [] ∨ u.isSome) ∧ (f ≠ 0 → FacInfo.pprodR l = f) := by
  rcases h with ⟨h0, rfl, rfl⟩ | ⟨h0, rfl, -, -, h3⟩
  · refine ⟨by simp [FacInfo.pprodR], .inr rfl, fun hf => ?_⟩
    obtain ⟨c, hc⟩ := natDegree_eq_zero.1 h0
    have hc0 : c ≠ 0 := by rintro rfl; rw [C_0] at hc; exact hf hc.symm
    rw [← hc, (by decide : ∀ c : ZMod 2, c ≠ 0 → c = 1) c hc0]
    simp [FacInfo.pprodR]
  · refine ⟨by simpa [FacInfo.pprodR] using h3, .inl ?_, fun _ => h3⟩
    rintro rfl
    rw [← h3] at h0
    simp at h0

/-- C101, f2_p_factor: the factorization of each polynomial; the command's own test, that the product is what was given, passes. -/
theorem C101_factor : PerArg IsHex (fun _ => True) (fun f => (f.natDegree : Int) ≤ INT_MAX)
    (fun several f t => ∃ u l, Factored f u l ∧ t = lab several (hex f) " = ".toList ++ facText hex u l ++ ['\n'])
    (f2_p_factor (msk M)) := by
  refine perArg (body := factor1 (f2Tool (msk M))) (fun _ _ => rfl) (fun several cs f h hq => ?_) (fun several cs h => (readArg_no h).bind)
  obtain ⟨a, h1, ha⟩ := read_hex h
  obtain ⟨fi, l, u, e1, e2, e3⟩ := factored M ha hq
  refine ⟨_, ⟨u, l, e3, rfl⟩, factor1_prints (tool M) h fun b hb => ?_⟩
  have : b = a := by
    have hr := hb.2.trans ha.2.symm
    exact hb.1.eq ha.1 hr
  subst this
  have hchk : (FacInfo.unfactor F2P.eltOps fi F2P.one).Ok fun r => PRep r f := by
    by_cases hf : f = 0
    · subst hf
      rcases e3 with ⟨-, rfl, rfl⟩ | ⟨h0, -⟩
      · obtain ⟨facs, unit⟩ := fi
        obtain ⟨d1, d2⟩ := e2
        cases d1
        cases d2 with
        | some d2 =>
          rw [d2.1.of_zero d2.2]
          exact ⟨[0], rfl, canon_zero, toPoly_zero⟩
      · simp at h0
    · have hp := e3.unit.1
      have := FacInfo.unfactor_ok F2P.facRef e2 (one := F2P.one) ⟨canon_one, toPoly_one⟩
        (by unfold FacInfo.prodOf; rw [FacInfo.toMs_prod]; exact hp ▸ hf)
      unfold FacInfo.prodOf at this
      rw [FacInfo.toMs_prod] at this
      exact this.mono fun r hr => hp ▸ hr
  obtain ⟨check, c1, c2⟩ := hchk
  refine ⟨fi, F2P.one, check, e1, e2, rfl, c1, ?_⟩
  show F2P.ne check b = _
  rw [F2Mod.ne_ok c2.1.ne_nil ha.1.ne_nil, c2.2, ha.2]
  simp

example : (f2_p_factor (fun _ => ok 5#64) ["70e".toList, "50".toList, "0".toList, "1".toList]).run =
    ok ("70e = 2 3 7 b d\n50 = 2^4 3^2\n0 = 0\n1 = 1\n".toList, .val ()) := by decide +kernel

/-- The polynomials with `P`, in ascending order, with spaces in between. -/
def Ascending (P : (ZMod 2)[X] → Prop) (t : List Char) : Prop :=
  ∃ xs : List (ZMod 2)[X], xs.Pairwise (fun x y => nval x < nval y) ∧ (∀ d, d ∈ xs ↔ P d) ∧ t = List.intercalate [' '] (xs.map hex)

/-- C101, f2_p_divisors: all divisors of each polynomial in ascending order, if there are fewer than 2^31. -/
theorem C101_divisors : PerArg IsHex (fun args => args.head? ≠ some "-mp".toList)
    (fun f => f ≠ 0 ∧ (f.natDegree : Int) ≤ INT_MAX ∧ Set.ncard {d | d ∣ f} ≤ 2147483647)
    (fun several f t => ∃ w, Ascending (fun d => d ∣ f) w ∧ t = lab several (hex f) ": ".toList ++ w ++ ['\n'])
    (f2_p_divisors (msk M)) := by
  refine perArg (body := divisors1 (f2Tool (msk M)) false) (fun args ha => ?_) (fun several cs f h hq => ?_)
    (fun several cs h => (readArg_no h).bind)
  · unfold f2_p_divisors
    split
    · exact absurd rfl ha
    · rfl
  obtain ⟨h0, hdeg, hcard⟩ := hq
  obtain ⟨a, h1, ha⟩ := read_hex h
  obtain ⟨fi, l, u, e1, e2, e3⟩ := factored M ha hdeg
  have hk : ∀ d, d ∣ f ↔ ∃ k, k < FacInfo.ndivR l ∧ FacInfo.kthR l k = d := by
    intro d
    have hp := e3.unit.2.2 h0
    constructor
    · intro hd
      obtain ⟨k, hk, hass⟩ := FacInfo.kthR_surj e3.coprimes d (hp ▸ hd)
      exact ⟨k, hk, dvd_antisymm_F2 hass.dvd hass.symm.dvd⟩
    · rintro ⟨k, hk, rfl⟩
      exact hp ▸ FacInfo.kthR_dvd l k
  rw [← FacInfo.ndivR_eq_ncard e3.coprimes (S := {d | d ∣ f}) hk] at hcard
  obtain ⟨L, g1, xs, g2, g3, g4⟩ := FacInfo.get_all_divisorsR F2P.facRef (fun _ h => h) e2 e3.coprimes hcard e3.unit.2.1
    (one := F2P.one) ⟨canon_one, toPoly_one⟩
  refine ⟨_, ⟨_, ⟨xs, g3, fun d => (g4 d).trans (hk d).symm, rfl⟩, rfl⟩, divisors1_prints (tool M) h fun b hb => ?_⟩
  cases hb.1.eq ha.1 (hb.2.trans ha.2.symm)
  exact ⟨fi, F2P.one, L, e1, rfl, g1, g2⟩

/-- C101, f2_p_divisors: everything divides zero, but only 1 is printed. -/
theorem C101_violated_divisors {cs : List Char} (h : IsHex cs 0) :
    Prints (f2_p_divisors (msk M) [cs]) "1\n".toList () ∧ (X : (ZMod 2)[X]) ∣ 0 := by
  refine ⟨?_, dvd_zero _⟩
  obtain ⟨a, h1, ha⟩ := read_hex h
  have hne : cs ≠ "-mp".toList := by
    rintro rfl
    rw [show f2FromString "-mp".toList = ok none from by decide +kernel] at h1
    cases h1
  have he : f2_p_divisors (msk M) [cs] = [cs].forM (divisors1 (f2Tool (msk M)) false false) := by
    unfold f2_p_divisors
    split
    · rename_i hh
      exact absurd (List.cons.inj hh).1 hne
    · rfl
  obtain ⟨⟨facs, unit⟩, e1, e2, e3⟩ := C53_constant (msk M) ha.1 (by rw [ha.2]; simp)
  cases e2
  cases e3
  rw [he, forM_cons']
  refine ((divisors1_prints (tool M) h (xs := [1]) fun b hb => ?_).bind (prints_pure ())).of_eq ?_
  · cases hb.1.eq ha.1 (hb.2.trans ha.2.symm)
    exact ⟨_, F2P.one, [F2P.one], e1, rfl, rfl, .cons ⟨canon_one, toPoly_one⟩ .nil⟩
  · have h1 : hex 1 = ['1'] := by
      rw [← toPoly_one]
      exact (Res.ok.inj ((print_ok canon_one.ne_nil).symm.trans (by decide +kernel)))
    simp [lab, h1, List.intercalate]

/-- C101, f2_p_divisors -mp: the quotients of each polynomial by its irreducible divisors in ascending order; none for constants. -/
theorem C101_maximal : PerArg IsHex (fun _ => True) (fun f => (f.natDegree : Int) ≤ INT_MAX)
    (fun several f t => ∃ w, (f.natDegree = 0 ∧ w = "(none)".toList ∨
        1 ≤ f.natDegree ∧ Ascending (fun d => ∃ p, Irreducible p ∧ d * p = f) w) ∧
      t = lab several (hex f) ": ".toList ++ w ++ ['\n'])
    (fun args => f2_p_divisors (msk M) ("-mp".toList :: args)) := by
  refine perArg (body := divisors1 (f2Tool (msk M)) true) (fun args _ => rfl) (fun several cs f h hdeg => ?_)
    (fun several cs h => (readArg_no h).bind)
  obtain ⟨a, h1, ha⟩ := read_hex h
  obtain ⟨fi, l, u, e1, e2, e3⟩ := factored M ha hdeg
  rcases id e3 with ⟨h0, rfl, rfl⟩ | ⟨h0, rfl, hs, hl, hp⟩
  · refine ⟨_, ⟨_, .inl ⟨h0, rfl⟩, rfl⟩, (divisors1_mp_none (tool M) h fun b hb => ?_).of_eq (by rw [List.append_assoc]; rfl)⟩
    cases hb.1.eq ha.1 (hb.2.trans ha.2.symm)
    refine ⟨fi, F2P.one, e1, rfl, ?_⟩
    have := e2.1.length_eq
    obtain ⟨facs, unit⟩ := fi
    have d1 := e2.1
    have d2 := e2.2
    cases d1
    cases d2
    rfl
  · have hf0 : f ≠ 0 := by rintro rfl; simp at h0
    have hexp : ∀ q ∈ l, q.2 ≤ 2147483647 := by
      intro q hq
      have hd : q.1 ^ q.2 ∣ f := hp ▸ List.dvd_prod (List.mem_map.2 ⟨q, hq, rfl⟩)
      have := natDegree_le_of_dvd hd hf0
      rw [natDegree_pow] at this
      have h1 := (hl q hq).1.natDegree_pos
      have h2 : q.2 ≤ q.2 * q.1.natDegree := Nat.le_mul_of_pos_right _ h1
      unfold INT_MAX at hdeg
      omega
    obtain ⟨o, g1, L, xs, rfl, g2, g3, g4⟩ := FacInfo.get_maximalR F2P.facRef (fun _ h => h) e2
      (hs.imp fun {p q} hlt he => by rw [he] at hlt; exact lt_irrefl _ hlt)
      (fun q hq => ⟨(hl q hq).1.ne_zero, (hl q hq).2, hexp q hq⟩) (by simp) (e3.unit.2.1.resolve_right (by simp)) (one := F2P.one) ⟨canon_one, toPoly_one⟩
    · refine ⟨_, ⟨_, .inr ⟨h0, xs, g3, fun d => (g4 d).trans ?_, rfl⟩, rfl⟩, divisors1_mp_prints (tool M) h fun b hb => ?_⟩
      · rw [e3.unit.1]
        constructor
        · rintro ⟨q, hq, he⟩
          exact ⟨q.1, (hl q hq).1, he⟩
        · rintro ⟨p, hp1, he⟩
          have hd : p ∣ (l.map fun q => q.1 ^ q.2).prod := hp ▸ Dvd.intro_left _ he
          obtain ⟨c, hc, hpc⟩ := (Prime.dvd_prod_iff hp1.prime).1 hd
          obtain ⟨q, hq, rfl⟩ := List.mem_map.1 hc
          have hpq := hp1.prime.dvd_of_dvd_pow hpc
          have : p = q.1 := dvd_antisymm_F2 hpq ((hp1.associated_of_dvd (hl q hq).1 hpq).symm.dvd)
          exact ⟨q, hq, this ▸ he⟩
      · cases hb.1.eq ha.1 (hb.2.trans ha.2.symm)
        exact ⟨fi, F2P.one, L, e1, rfl, g1, g2⟩

example : (f2_p_divisors (fun _ => ok 5#64) ["50".toList, "1".toList]).run =
    ok ("50: 1 2 3 4 5 6 8 a c 10 14 18 28 30 50\n1: 1\n".toList, .val ()) ∧
    (f2_p_divisors (fun _ => ok 5#64) ["-mp".toList, "50".toList, "1".toList]).run =
    ok ("50: 28 30\n1: (none)\n".toList, .val ()) := by decide +kernel

/-! ### f2_p_eval, f2_p_comp_mx, f2_p_qp, f2_p_list -/

/-- An integer of less than 33 bits, taken modulo 2. -/
def IsBit (cs : List Char) (c : ZMod 2) : Prop := ∃ n tail, IntText cs n tail ∧ n.natAbs < 2 ^ 32 ∧ c = (n : ZMod 2)

/-- 0 or 1 -/
def bitText (c : ZMod 2) : List Char := if c = 0 then ['0'] else ['1']

/-- C101, f2_p_eval: the value of the polynomial at each bit. -/
theorem C101_eval {x : List Char} {f : (ZMod 2)[X]} (h : IsHex x f) (hf : f.natDegree < 2147483584) :
    PerArg IsBit (fun args => args ≠ []) (fun _ => True) (fun _ c t => t = bitText (f.eval c) ++ ['\n'])
      (fun args => f2_p_eval (x :: args)) := by
  obtain ⟨a, h1, ha, rfl⟩ := read_hex h
  refine perArg (body := fun _ => f2_p_eval1 a) (fun args hne => ?_) (fun several cs c hc _ => ⟨_, rfl, ?_⟩) (fun several cs hno => ?_)
  · obtain ⟨y, r, rfl⟩ := List.exists_cons_of_ne_nil hne
    show (readArg f2FromString x >>= fun f => (y :: r).forM (f2_p_eval1 f)) = _
    have e : readArg f2FromString x = pure a := by
      unfold readArg
      rw [h1]
      exact pure_bind (m := Cmd) (some a) _
    rw [e]
    exact pure_bind _ _
  · obtain ⟨n, tail, t1, t2, rfl⟩ := hc
    have hb := (BText97.C97_bit_from_string cs (decide (n % 2 = 1))).2 ⟨n, tail, t1, t2, rfl⟩
    have hlen : 64 * a.length ≤ 2147483647 := by
      unfold Canon at ha
      omega
    obtain ⟨v, e1, e2, e3⟩ := C25_eval a ha hlen (if decide (n % 2 = 1) then 1 else 0)
    have hn : (((if decide (n % 2 = 1) then 1 else 0 : Int)) : ZMod 2) = (n : ZMod 2) := by
      rw [ZMod.intCast_eq_intCast_iff]
      unfold Int.ModEq
      by_cases hm : n % 2 = 1
      · simp [hm]
      · simp [hm]; omega
    rw [hn] at e3
    unfold f2_p_eval1
    refine ((readArg_prints (read := bitOfString) (a := decide (n % 2 = 1)) (by unfold bitOfString; rw [hb])).then
      ((prints_lift e1).then (putLine_prints (t := bitText ((toPoly a).eval (n : ZMod 2))) ?_)))
    rw [← e3]
    rcases e2 with rfl | rfl <;> decide +kernel
  · refine (readArg_exits (read := bitOfString) ?_).bind
    unfold bitOfString
    cases hb : BText.bitFromString cs with
    | none => rfl
    | some b =>
      obtain ⟨n, tail, t1, t2, -⟩ := (BText97.C97_bit_from_string cs b).1 hb
      exact absurd ⟨n, tail, t1, t2, rfl⟩ (hno n)

theorem C101_eval_usage (x : List Char) (hx : ∀ f, ¬ IsHex x f) (y : List Char) (r : List (List Char)) :
    Exits (f2_p_eval (x :: y :: r)) [] ∧ Exits (f2_p_eval [y]) [] ∧ Exits (f2_p_eval []) [] :=
  ⟨(readArg_no hx).bind, rfl, rfl⟩

example : (f2_p_eval ["7".toList, "1".toList, "0".toList, "-1".toList, "x".toList, "1".toList]).run =
    ok ("1\n1\n1\n".toList, .exit1) := by decide +kernel

/-- C101, f2_p_comp_mx: a matrix whose characteristic polynomial is the given one: the coefficients in the first row, ones below the
diagonal.  For constants an uncaught exception. -/
theorem C101_comp_mx {x : List Char} {f : (ZMod 2)[X]} (h : IsHex x f) :
    (1 ≤ f.natDegree → (companion f.natDegree f).charpoly = f ∧
      Prints (f2_p_comp_mx [x]) (matText bitText (companion f.natDegree f) ++ ['\n']) ()) ∧
    (f.natDegree = 0 → ThrowsC (f2_p_comp_mx [x]) []) := by
  obtain ⟨a, h1, ha, rfl⟩ := read_hex h
  refine ⟨fun hd => ⟨companion_charpoly ?_ rfl hd, ?_⟩, fun hd => ?_⟩
  · rw [Monic, leadingCoeff]
    have h0 : (toPoly a).leadingCoeff ≠ 0 := leadingCoeff_ne_zero.2 (by intro h0; rw [h0] at hd; simp at hd)
    exact (by decide : ∀ c : ZMod 2, c ≠ 0 → c = 1) _ h0
  · obtain ⟨A, e1, e2⟩ := sat_false.1 (LinAlg.f2_companion_sat (f := a) hd rfl)
    unfold f2_p_comp_mx
    refine (readArg_prints h1).then ((prints_lift e1).then (putLine_prints (showMat_text e2 fun b c hb => ?_)))
    obtain ⟨w⟩ := b
    cases (hb : w = _)
    revert c
    decide
  · unfold f2_p_comp_mx
    refine (readArg_prints h1).then_throws (throws_lift ?_).bind
    unfold LinAlg.f2_companion_matrix
    rw [find_degree_ok, ok_bind, hd]
    rfl

theorem C101_comp_mx_usage (x : List Char) (hx : ∀ f, ¬ IsHex x f) (args : List (List Char)) (ha : args.length ≠ 1) :
    Exits (f2_p_comp_mx [x]) [] ∧ Exits (f2_p_comp_mx args) [] := by
  refine ⟨(readArg_no hx).bind, ?_⟩
  match args, ha with
  | [], _ => rfl
  | _ :: _ :: _, _ => rfl

example : (f2_p_comp_mx ["b".toList]).run = ok ("0 1 1\n1 0 0\n0 1 0\n\n".toList, .val ()) ∧
    (f2_p_comp_mx ["1".toList]).run = ok ([], .thrown) := by decide +kernel

/-- The text of a polynomial with integer coefficients: digits, or integers with commas in between; the leading coefficient first. -/
def IsQInt (cs : List Char) (F : ℤ[X]) : Prop :=
  (',' ∉ cs ∧ cs ≠ [] ∧ (∀ c ∈ cs, isDig c = true) ∧ F = PText.horner (cs.map fun c => (digVal c : ℤ))) ∨
  (',' ∈ cs ∧ ∃ xs, (cs.splitOnP (· == ',')).filter (· ≠ []) ≠ [] ∧
    List.Forall₂ PText93.QReads ((cs.splitOnP (· == ',')).filter (· ≠ [])) xs ∧ F = PText.horner xs)

/-- A text with a comma and a part that is not an integer, or without comma and with a character that is no digit. -/
def NotQInt (cs : List Char) : Prop :=
  (',' ∉ cs ∧ ∃ c ∈ cs, isDig c = false) ∨
  (',' ∈ cs ∧ ∃ as t bs xs, (cs.splitOnP (· == ',')).filter (· ≠ []) = as ++ t :: bs ∧ List.Forall₂ PText93.QReads as xs ∧
    ∀ n tail, IntText t n tail → ¬ InInt n)

theorem read_qint {cs : List Char} {F : ℤ[X]} (h : IsQInt cs F) : ∃ q, qOfString cs = ok (some q) ∧ CPoly.PRep Cyclo.ZRep q F := by
  rcases h with ⟨h1, h2, h3, rfl⟩ | ⟨h1, xs, h2, h3, rfl⟩
  · obtain ⟨r, e1, b, rfl, e2⟩ := (PText93.C93_q_digits h1).1 h2 h3
    exact ⟨b, by unfold qOfString; rw [e1]; rfl, e2⟩
  · obtain ⟨r, e1, b, rfl, e2⟩ := (PText93.C93_q_list h1 rfl).1 xs h2 h3
    exact ⟨b, by unfold qOfString; rw [e1]; rfl, e2⟩

theorem read_notQ {cs : List Char} (h : NotQInt cs) : qOfString cs = ok none := by
  rcases h with ⟨h1, h2⟩ | ⟨h1, as, t, bs, xs, h2, h3, h4⟩
  · obtain ⟨r, e1, b, rfl⟩ := (PText93.C93_q_digits h1).2.1 h2
    unfold qOfString; rw [e1]; rfl
  · obtain ⟨r, e1, b, rfl⟩ := ((PText93.C93_q_list h1 rfl).2.1 as t bs xs h2 h3).1 h4
    unfold qOfString; rw [e1]; rfl

theorem zrep_rat {a : IntRat} {x : ℤ} (h : Cyclo.ZRep a x) : IntRat.Rep a ((Int.castRingHom ℚ) x) := by
  obtain ⟨rfl, h⟩ := h
  rw [abs_le] at h
  refine ⟨by norm_num, by unfold InInt; norm_num, ?_, ?_, by simp, by simp⟩
  · unfold InInt
    show -2147483648 ≤ x ∧ x ≤ 2147483647
    omega
  · show x ≠ -2147483648
    omega

theorem qint_rat {q : CPoly IntRat} {F : ℤ[X]} (h : CPoly.PRep Cyclo.ZRep q F) : CPoly.PRep IntRat.Rep q (F.map (Int.castRingHom ℚ)) where
  deg := by rw [natDegree_map_eq_of_injective Int.cast_injective]; exact h.deg
  co i hi := (h.co i hi).imp fun e he => ⟨he.1, by rw [coeff_map]; exact zrep_rat he.2⟩

/-- C101, f2_p_qp: integer polynomials modulo 2.  Missing: rational coefficients cannot be written; degrees above 30 (C89_violated_f2);
the empty text and the coefficient -2^31, which are undefined behaviour (C93). -/
theorem C101_qp_partial {pre : List (List Char)} {Fs : List ℤ[X]} (h : List.Forall₂ IsQInt pre Fs) (hd : ∀ F ∈ Fs, F.natDegree ≤ 30) :
    (pre ≠ [] → Prints (f2_p_qp pre) (Fs.flatMap fun F => hex (F.map (Int.castRingHom (ZMod 2))) ++ ['\n']) ()) ∧
    ∀ bad post, NotQInt bad → Exits (f2_p_qp (pre ++ bad :: post)) (Fs.flatMap fun F => hex (F.map (Int.castRingHom (ZMod 2))) ++ ['\n']) := by
  have hb : ∀ cs F, IsQInt cs F → F.natDegree ≤ 30 → Prints (f2_p_qp1 cs) (hex (F.map (Int.castRingHom (ZMod 2))) ++ ['\n']) () := by
    intro cs F hF hd
    obtain ⟨q, e1, e2⟩ := read_qint hF
    obtain ⟨r, e3, e4, e5⟩ := C89_f2_partial q (F.map (Int.castRingHom ℚ)) (qint_rat e2)
      (by rw [natDegree_map_eq_of_injective Int.cast_injective]; exact hd) (by intro i; simp)
    have e6 : toPoly r = F.map (Int.castRingHom (ZMod 2)) := by
      ext i
      rw [e5 i]
      simp
    unfold f2_p_qp1
    exact (readArg_prints e1).then ((prints_lift e3).then (putLine_prints ((tool 0).sh ⟨e4, e6⟩)))
  have hb' : ∀ cs F, IsQInt cs F → F.natDegree ≤ 30 → ∃ t, t = hex (F.map (Int.castRingHom (ZMod 2))) ++ ['\n'] ∧ Prints (f2_p_qp1 cs) t () :=
    fun cs F h1 h2 => ⟨_, rfl, hb cs F h1 h2⟩
  have hts : ∀ {ts : List (List Char)}, List.Forall₂ (fun (F : ℤ[X]) t => t = hex (F.map (Int.castRingHom (ZMod 2))) ++ ['\n']) Fs ts →
      ts.flatten = Fs.flatMap fun F => hex (F.map (Int.castRingHom (ZMod 2))) ++ ['\n'] := by
    intro ts hh
    clear h hd hb hb'
    induction hh with
    | nil => rfl
    | cons h1 h2 ih => rw [List.flatten_cons, List.flatMap_cons, h1, ih]
  refine ⟨fun hne => ?_, fun bad post hbad => ?_⟩
  · obtain ⟨ts, h1, h2⟩ := forM_rel h hd hb'
    unfold f2_p_qp
    rw [if_neg (by have := List.length_pos_iff.2 hne; omega), ← hts h1]
    exact h2
  · obtain ⟨ts, h1, h2⟩ := forM_rel_exits (post := post) (bad := bad) h hd hb' ((readArg_exits (read_notQ hbad)).bind)
    unfold f2_p_qp
    rw [if_neg (by simp), ← hts h1]
    exact h2

example : (f2_p_qp ["1,-3,2,5".toList, "101".toList, "1,x".toList]).run = ok ("d\n5\n".toList, .exit1) := by decide +kernel

/-- C101, f2_p_list: for each degree from `lo` to `hi` all polynomials, in ascending order, one per line.  Missing: degrees above 30
(C70_violated_31). -/
theorem C101_list_partial {cs : List Char} {lo hi : Int} (h : IsRange cs lo hi) (h0 : 0 ≤ lo) (h30 : hi ≤ 30) :
    ∃ L : List (ZMod 2)[X], L.Pairwise (fun x y => nval x < nval y) ∧
      (∀ f, f ∈ L ↔ f ≠ 0 ∧ lo ≤ f.natDegree ∧ (f.natDegree : Int) ≤ hi) ∧
      Prints (f2_p_list [cs]) (L.flatMap fun f => hex f ++ ['\n']) () := by
  have key : ∀ n : Int, lo ≤ n → n ≤ hi → ∃ L : List (ZMod 2)[X], L.Pairwise (fun x y => nval x < nval y) ∧
      (∀ f, f ∈ L ↔ f ≠ 0 ∧ (f.natDegree : Int) = n) ∧
      Prints (lift (Lists.f2_poly_list n) >>= crout F2P.print) (L.flatMap fun f => hex f ++ ['\n']) () := by
    intro n h1 h2
    lift n to ℕ using by omega
    obtain ⟨r, e1, ⟨L, e2, -, e3⟩, e4⟩ := C70_f2_poly_partial (n := n) (by omega)
    refine ⟨L, ?_, fun f => by rw [e3 f]; simp, (prints_lift e1).then (crout_prints (tool 0) e2)⟩
    rw [List.pairwise_iff_get] at e4 ⊢
    intro i j hij
    have hl := e2.length_eq
    have hi := (List.forall₂_iff_get.1 e2).2 i (by omega) i.2
    have hj := (List.forall₂_iff_get.1 e2).2 j (by omega) j.2
    have := e4 ⟨i, by omega⟩ ⟨j, by omega⟩ hij
    rw [lt_ok hi.1.ne_nil hj.1.ne_nil, hi.2, hj.2] at this
    simpa using this
  choose! L k1 k2 k3 using key
  refine ⟨(List.range (hi - lo + 1).toNat).flatMap fun i : ℕ => L (lo + i), ?_, ?_, ?_⟩
  · rw [List.pairwise_flatMap]
    refine ⟨fun i hi => k1 _ (by omega) (by have := List.mem_range.1 hi; omega), List.pairwise_lt_range.imp_of_mem fun {i j} hi hj hij x hx y hy => ?_⟩
    have hi' := List.mem_range.1 hi
    have hj' := List.mem_range.1 hj
    have h1 := ((k2 (lo + i) (by omega) (by omega) x).1 hx).2
    have h2 := ((k2 (lo + j) (by omega) (by omega) y).1 hy).2
    exact nval_lt_of_degree (by omega)
  · intro f
    rw [List.mem_flatMap]
    constructor
    · rintro ⟨i, hi, hf⟩
      have hi' := List.mem_range.1 hi
      have := (k2 (lo + i) (by omega) (by omega) f).1 hf
      exact ⟨this.1, by omega, by omega⟩
    · rintro ⟨hf, h1, h2⟩
      exact ⟨(f.natDegree - lo).toNat, List.mem_range.2 (by omega), (k2 _ (by omega) (by omega) f).2 ⟨hf, by omega⟩⟩
  · refine (degrees_prints h (by unfold INT_MAX; omega) k3).of_eq ?_
    rw [List.flatMap_assoc]

example : (f2_p_list ["0-2".toList]).run = ok ("1\n2\n3\n4\n5\n6\n7\n".toList, .val ()) := by decide +kernel

end Spffl.Props.Cmd101
