import Verif.Proof.Cmd
import Verif.Props.IntMath
import Verif.Props.Primes
import Verif.Props.FacInfo

/-!
# C100: the integer commands
-/

namespace Spffl.Props.Cmd100
open Res Scan Spffl.Cmd

/-- The arguments are integers, in the range of `int`, with these values. -/
abbrev Ints (args : List (List Char)) (ns : List Int) : Prop := List.Forall₂ IsInt args ns

/-! ### Lists of numbers in ascending order -/

theorem sorted_ext {α : Type} [LinearOrder α] {l l' : List α} (h : l.Pairwise (· < ·)) (h' : l'.Pairwise (· < ·))
    (hm : ∀ x, x ∈ l ↔ x ∈ l') : l = l' :=
  List.Perm.eq_of_pairwise (le := (· < ·)) (fun a b _ _ h1 h2 => absurd h1 (lt_asymm h2)) h h'
    ((List.perm_ext_iff_of_nodup (h.imp fun h => h.ne) (h'.imp fun h => h.ne)).2 hm)

/-- The primes dividing `N`, ascending. -/
def primesOf (N : ℕ) : List ℕ := (List.range (N + 1)).filter fun p => decide (p.Prime ∧ p ∣ N)

theorem range_sorted (n : ℕ) : (List.range n).Pairwise (· < ·) := by
  rw [List.pairwise_iff_getElem]
  intro i j hi hj h
  simpa using h

theorem primesOf_sorted (N : ℕ) : (primesOf N).Pairwise (· < ·) := (range_sorted _).filter _

theorem mem_primesOf {N : ℕ} (h : 0 < N) (p : ℕ) : p ∈ primesOf N ↔ p.Prime ∧ p ∣ N := by
  unfold primesOf
  rw [List.mem_filter, List.mem_range, decide_eq_true_eq]
  exact ⟨fun h => h.2, fun h' => ⟨Nat.lt_succ_of_le (Nat.le_of_dvd h h'.2), h'⟩⟩

/-- The positive divisors of `N`, ascending. -/
def divisorsOf (N : ℕ) : List ℕ := (List.range (N + 1)).filter fun d => decide (0 < d ∧ d ∣ N)

theorem mem_divisorsOf {N : ℕ} (h : 0 < N) (d : ℕ) : d ∈ divisorsOf N ↔ 0 < d ∧ d ∣ N := by
  unfold divisorsOf
  rw [List.mem_filter, List.mem_range, decide_eq_true_eq]
  exact ⟨fun h => h.2, fun h' => ⟨Nat.lt_succ_of_le (Nat.le_of_dvd h h'.2), h'⟩⟩

theorem showInt_nat (n : ℕ) : showInt n = showNat n := by unfold showInt; simp

/-! ### Rules -/

theorem not_flag {cs : List Char} {n : Int} (h : IsInt cs n) {f : List Char} (hf : scanD f = ok none) : cs ≠ f := by
  rintro rfl
  obtain ⟨hn, t, ht⟩ := h
  rw [scanD_text ht, if_pos hn] at hf
  cases hf

theorem foldArgs_exits {op : Int → Int → Res Int} {g : Int} {pre post : List (List Char)} {ns : List Int}
    {bad : List Char} (h : Ints pre ns) (hop : ∀ g a, ∃ r, op g a = ok r) (hb : NotInt bad) :
    Exits (foldArgs op g (pre ++ bad :: post)) [] := by
  induction h generalizing g with
  | nil => exact (intArg_exits hb).bind
  | cons h _ ih =>
    obtain ⟨r, hr⟩ := hop g _
    have h2 := Prints.bind_exits (prints_lift hr) (f := fun g => foldArgs op g _) (s := []) ih
    exact (intArg_prints h).bind_exits (s := []) h2

/-! ### z_gcd -/

theorem int_gcd_bound {a b g : Int} (ha : a.natAbs ≤ 2147483647) (hb : b.natAbs ≤ 2147483647)
    (hg : g.natAbs = Int.gcd a b) : g.natAbs ≤ 2147483647 := by
  rw [hg]
  by_cases h : a = 0
  · subst h; simpa using hb
  · exact (Nat.le_of_dvd (by omega) (Int.gcd_dvd_natAbs_left a b)).trans ha

theorem foldArgs_gcd {args : List (List Char)} {ns : List Int} (h : Ints args ns) :
    ∀ g : Int, g.natAbs ≤ 2147483647 → (∀ n ∈ ns, n ≠ INT_MIN) →
      ∃ g', Prints (foldArgs int_gcd g args) [] g' ∧
        (∀ d : ℕ, d ∣ g'.natAbs ↔ d ∣ g.natAbs ∧ ∀ n ∈ ns, (d : Int) ∣ n) ∧
        ((∀ n ∈ ns, n = 0) → g' = g) ∧ (0 < g' ∨ ((g :: ns).filter (· ≠ 0)).length ≤ 1) := by
  induction h with
  | nil =>
    intro g _ _
    refine ⟨g, prints_pure g, by simp, by simp, .inr ?_⟩
    exact (List.length_filter_le _ _).trans (by simp)
  | @cons a n args ns h1 h2 ih =>
    intro g hg hn
    have hn1 : n.natAbs ≤ 2147483647 := by
      have := h1.1; have := hn n (by simp); unfold InInt INT_MIN at *; omega
    have hg2 : g ≠ INT_MIN := by unfold INT_MIN; omega
    have hgI : InInt g := by unfold InInt; omega
    obtain ⟨g1, e1, e2, e3⟩ := C01_int_gcd_partial g n hgI h1.1 hg2 (hn n (by simp))
    obtain ⟨g', p1, p2, p3, p4⟩ := ih g1 (int_gcd_bound hg hn1 e2) (fun m hm => hn m (by simp [hm]))
    refine ⟨g', (intArg_prints h1).then ((prints_lift e1).then p1), ?_, ?_, ?_⟩
    · intro d
      rw [p2, e2, List.forall_mem_cons, Int.gcd, Nat.dvd_gcd_iff, ← Int.natCast_dvd (n := n), and_assoc]
    · intro hz
      rw [p3 fun m hm => hz m (by simp [hm])]
      have : n = 0 := hz n (by simp)
      subst this
      rw [int_gcd_zero_right] at e1
      exact (Res.ok.inj e1).symm
    · by_cases h0 : g = 0
      · subst h0
        rw [int_gcd_zero_left] at e1
        rw [Res.ok.inj e1]
        simpa using p4
      · by_cases h0' : n = 0
        · subst h0'
          rw [int_gcd_zero_right] at e1
          rw [Res.ok.inj e1]
          have hf : (g :: 0 :: ns).filter (fun x => decide (x ≠ 0)) = (g :: ns).filter (fun x => decide (x ≠ 0)) := by
            simp [h0]
          rw [Res.ok.inj e1] at hf
          rw [hf]; exact p4
        · have hpos := e3 h0 h0'
          rcases p4 with p4 | p4
          · exact .inl p4
          · left
            have : ∀ m ∈ ns, m = 0 := by
              have hnz : g1 ≠ 0 := by omega
              rw [List.filter_cons_of_pos (by simpa using hnz), List.length_cons] at p4
              have h5 : ns.filter (fun x => decide (x ≠ 0)) = [] := List.length_eq_zero_iff.1 (by omega)
              rw [List.filter_eq_nil_iff] at h5
              intro m hm
              simpa using h5 m hm
            rw [p3 this]; exact hpos

/-- C100, `z_gcd`: for integers other than the smallest one, one line with the greatest common divisor; it is positive
if at least two of them are not zero. -/
theorem C100_gcd (x : List Char) (args : List (List Char)) (n : Int) (ns : List Int) (hx : IsInt x n) (h : Ints args ns)
    (hmin : ∀ m ∈ n :: ns, m ≠ INT_MIN) :
    ∃ g : Int, Prints (z_gcd (x :: args)) (showInt g ++ ['\n']) () ∧
      (∀ d : ℕ, d ∣ g.natAbs ↔ ∀ m ∈ n :: ns, (d : Int) ∣ m) ∧
      (2 ≤ ((n :: ns).filter (· ≠ 0)).length → 0 < g) := by
  have hn1 : n.natAbs ≤ 2147483647 := by
    have := hx.1; have := hmin n (by simp); unfold InInt INT_MIN at *; omega
  obtain ⟨g, h1, h2, -, h4⟩ := foldArgs_gcd h n hn1 fun m hm => hmin m (by simp [hm])
  refine ⟨g, ?_, ?_, fun h => h4.resolve_right (by omega)⟩
  · have hne := not_flag hx (f := ['-', 'e']) (by decide +kernel)
    have : z_gcd (x :: args) = foldCmd int_gcd (x :: args) := by
      unfold z_gcd
      split
      · rename_i he; cases he; exact absurd rfl hne
      · rfl
    rw [this]
    exact (intArg_prints hx).then (h1.then (prints_out _))
  · intro d
    rw [h2, List.forall_mem_cons, ← Int.natCast_dvd]

example : (z_gcd ["12".toList, " -18x".toList, "+30".toList]).run = ok ("6\n".toList, .val ()) := by decide +kernel

/-- A number alone, or with zeros, is printed with its sign. -/
theorem C100_violated_gcd_sign : (z_gcd ["-4".toList]).run = ok ("-4\n".toList, .val ()) ∧
    (z_gcd ["0".toList, "-4".toList]).run = ok ("-4\n".toList, .val ()) := by constructor <;> decide +kernel

/-- C100, `z_gcd -e`: for integers whose product is in range, the second not zero, one line `g = r * a + s * b` that
is true and in which `g` is the greatest common divisor up to sign. -/
theorem C100_ext_gcd_partial (x y : List Char) (a b : Int) (hx : IsInt x a) (hy : IsInt y b) (ha : a ≠ INT_MIN)
    (hb : b ≠ INT_MIN) (hb0 : b ≠ 0) (hab : |a * b| ≤ INT_MAX) :
    ∃ g r s : Int, Prints (z_gcd ["-e".toList, x, y]) (showInt g ++ " = ".toList ++ showInt r ++ " * ".toList ++
        showInt a ++ " + ".toList ++ showInt s ++ " * ".toList ++ showInt b ++ ['\n']) () ∧
      g = r * a + s * b ∧ ∀ d : ℕ, d ∣ g.natAbs ↔ (d : Int) ∣ a ∧ (d : Int) ∣ b := by
  obtain ⟨g, r, s, h1, h2, h3, h4, h5⟩ := C02_int_ext_gcd a b hx.1 hy.1 ha hb hb0
  refine ⟨g, r, s, ?_, by rw [h2]; ring, ?_⟩
  · have hbI := hy.1
    have hb2 : |b| ≤ 2147483647 := by
      unfold InInt INT_MIN at *
      exact abs_le.2 ⟨by omega, by omega⟩
    have q1 : |a * r| ≤ 2147483647 := by
      rw [abs_mul] at hab ⊢
      exact (mul_le_mul_of_nonneg_left h4 (abs_nonneg a)).trans hab
    have q2 : |b * s| ≤ 2147483647 := by
      rw [abs_mul] at hab ⊢
      refine (mul_le_mul_of_nonneg_left h5 (abs_nonneg b)).trans ?_
      rcases le_total 1 |a| with h | h
      · rw [max_eq_right h, mul_comm]; exact hab
      · rw [max_eq_left h, mul_one]; exact hb2
    have hg : g.natAbs ≤ 2147483647 := by
      have hx1 := hx.1
      refine int_gcd_bound (a := a) (b := b) ?_ ?_ h3 <;> · unfold InInt INT_MIN at *; omega
    rw [abs_le] at q1 q2
    have i1 : imul a r = ok (a * r) := by unfold imul; rw [chk_ok]; unfold InInt; omega
    have i2 : imul b s = ok (b * s) := by unfold imul; rw [chk_ok]; unfold InInt; omega
    have i3 : iadd (a * r) (b * s) = ok g := by unfold iadd; rw [← h2, chk_ok]; unfold InInt; omega
    show Prints (z_gcd_ext [x, y]) _ ()
    unfold z_gcd_ext
    refine (intArg_prints hx).then ((intArg_prints hy).then ((prints_lift h1).then ?_))
    rw [← List.append_nil (showInt g ++ " = ".toList ++ showInt r ++ " * ".toList ++
        showInt a ++ " + ".toList ++ showInt s ++ " * ".toList ++ showInt b ++ ['\n'])]
    refine (prints_out _).bind ((prints_lift i1).then ((prints_lift i2).then ((prints_lift i3).then ?_)))
    rw [if_neg (by simp)]
    exact prints_pure ()
  · intro d
    rw [h3, Int.gcd, Nat.dvd_gcd_iff, ← Int.natCast_dvd, ← Int.natCast_dvd]

example : (z_gcd ["-e".toList, "240".toList, "46".toList]).run = ok ("2 = -9 * 240 + 47 * 46\n".toList, .val ()) := by
  decide +kernel

/-- With a second number of zero the division by zero is reached. -/
theorem C100_violated_ext_zero (x y : List Char) (a : Int) (hx : IsInt x a) (hy : IsInt y 0) :
    IsUb (z_gcd ["-e".toList, x, y]) := by
  show IsUb (z_gcd_ext [x, y])
  unfold z_gcd_ext
  refine (intArg_prints hx).bind_ub ((intArg_prints hy).bind_ub (IsUb.bind ?_))
  rw [C02_zero_divisor]
  rfl

/-- The check of the result overflows although the result is printed already. -/
theorem C100_violated_ext_check : IsUb (z_gcd ["-e".toList, "1000000007".toList, "2147483629".toList]) ∧
    int_ext_gcd 1000000007 2147483629 = ok (1, 855307771, -398283724) := by
  constructor
  · show _ = _
    decide +kernel
  · decide +kernel

/-! ### z_lcm -/

theorem foldArgs_lcm {args : List (List Char)} {ns : List Int} (h : Ints args ns) :
    ∀ l : Int, l ≠ 0 → (∀ n ∈ ns, n ≠ 0) → l.natAbs * (ns.map Int.natAbs).prod ≤ 2147483647 →
      ∃ l', Prints (foldArgs int_lcm l args) [] l' ∧
        (∀ m : ℕ, l'.natAbs ∣ m ↔ l.natAbs ∣ m ∧ ∀ n ∈ ns, n.natAbs ∣ m) := by
  induction h with
  | nil => intro l _ _ _; exact ⟨l, prints_pure l, by simp⟩
  | @cons a n args ns h1 h2 ih =>
    intro l hl hn hb
    have hn0 := hn n (by simp)
    have hpos : 0 < (ns.map Int.natAbs).prod := by
      refine Nat.pos_of_ne_zero fun h => ?_
      rw [List.prod_eq_zero_iff, List.mem_map] at h
      obtain ⟨m, hm, h0⟩ := h
      exact hn m (by simp [hm]) (by omega)
    rw [List.map_cons, List.prod_cons, ← mul_assoc] at hb
    have hb1 : l.natAbs * n.natAbs ≤ 2147483647 := (Nat.le_mul_of_pos_right _ hpos).trans hb
    have hlb : l.natAbs ≤ 2147483647 := (Nat.le_mul_of_pos_right _ (by omega)).trans hb1
    have hnb : n.natAbs ≤ 2147483647 := (Nat.le_mul_of_pos_left _ (by omega)).trans hb1
    obtain ⟨l1, e1, e2⟩ := C03_int_lcm_partial l n (by unfold InInt; omega) h1.1 (by unfold INT_MIN; omega)
      (by unfold INT_MIN; omega) (by rw [← Int.natAbs_mul] at hb1; unfold InInt; omega) (.inl hl)
    have hl1 : l1 ≠ 0 := by
      have := Nat.lcm_pos (m := l.natAbs) (n := n.natAbs) (by omega) (by omega)
      omega
    obtain ⟨l', p1, p2⟩ := ih l1 hl1 (fun m hm => hn m (by simp [hm])) (by
      refine le_trans (Nat.mul_le_mul_right _ ?_) hb
      rw [e2]
      exact Nat.le_of_dvd (Nat.mul_pos (by omega) (by omega)) (Nat.lcm_dvd_mul _ _))
    refine ⟨l', (intArg_prints h1).then ((prints_lift e1).then p1), fun m => ?_⟩
    rw [p2, e2, Nat.lcm_dvd_iff, List.forall_mem_cons, and_assoc]

/-- C100, `z_lcm`: for nonzero integers whose product is in range, one line with the least common multiple up to
sign. -/
theorem C100_lcm_partial (x : List Char) (args : List (List Char)) (n : Int) (ns : List Int) (hx : IsInt x n)
    (h : Ints args ns) (h0 : ∀ m ∈ n :: ns, m ≠ 0) (hb : ((n :: ns).map Int.natAbs).prod ≤ 2147483647) :
    ∃ l : Int, Prints (z_lcm (x :: args)) (showInt l ++ ['\n']) () ∧
      ∀ m : ℕ, l.natAbs ∣ m ↔ ∀ k ∈ n :: ns, k.natAbs ∣ m := by
  obtain ⟨l, h1, h2⟩ := foldArgs_lcm h n (h0 n (by simp)) (fun m hm => h0 m (by simp [hm])) (by simpa using hb)
  exact ⟨l, (intArg_prints hx).then (h1.then (prints_out _)), fun m => by rw [h2, List.forall_mem_cons]⟩

example : (z_lcm ["4".toList, "6".toList, "10".toList]).run = ok ("60\n".toList, .val ()) := by decide +kernel

/-- The least common multiple of a negative number is negative, and one that would be in range overflows. -/
theorem C100_violated_lcm : (z_lcm ["-4".toList, "6".toList]).run = ok ("-12\n".toList, .val ()) ∧
    IsUb (z_lcm ["65536".toList, "65536".toList]) ∧ IsUb (z_lcm ["0".toList, "0".toList]) := by
  refine ⟨by decide +kernel, ?_, ?_⟩ <;> · show _ = _; decide +kernel

/-! ### z_totient, z_test_prime -/

/-- The label in front of a result if there is more than one argument. -/
def lbl (several : Prop) [Decidable several] (n : Int) (sep : String) : List Char :=
  if several then showInt n ++ sep.toList else []

/-- One line of `z_totient`. -/
def totientLine (several : Prop) [Decidable several] (n : Int) : List Char :=
  lbl several n ": " ++ showNat (if 2 ≤ n then Nat.totient n.toNat else 0) ++ ['\n']

theorem int_totient_all {n : Int} (hn : InInt n) :
    int_totient n = ok ((if 2 ≤ n then Nat.totient n.toNat else 0 : ℕ) : Int) := by
  by_cases h : 2 ≤ n
  · rw [C06_int_totient_partial n h hn, if_pos h]
  · rw [if_neg h]
    unfold int_totient
    have : n.toNat ≤ 1 := by omega
    rcases Nat.le_one_iff_eq_zero_or_eq_one.1 this with h | h <;> rw [h] <;> rfl

theorem totient1_prints (s : Bool) (a : List Char) (n : Int) (h : IsInt a n) :
    Prints (z_totient1 s a) (totientLine (s = true) n) () := by
  unfold z_totient1 totientLine
  rw [List.append_assoc]
  refine (intArg_prints h).then ((prints_lift (int_totient_all h.1)).then ((prints_label s _ _).bind ?_))
  rw [showInt_nat]
  exact prints_out _

/-- C100, `z_totient`: for all integers, one line each; what is printed is the number of units modulo `n` for every
`n ≥ 2`, and 0 otherwise. -/
theorem C100_totient (args : List (List Char)) (ns : List Int) (h : Ints args ns) (hne : args ≠ []) :
    Prints (z_totient args) (ns.flatMap (totientLine (1 < ns.length))) () := by
  have hl := h.length_eq
  unfold z_totient
  rw [if_neg (by have := List.length_pos_iff.2 hne; omega)]
  refine forM_prints h fun a n _ hn => ?_
  simpa [hl] using totient1_prints (decide (1 < args.length)) a n hn

example : (z_totient ["12".toList, "7".toList]).run = ok ("12: 4\n7: 6\n".toList, .val ()) := by decide +kernel

/-- C100: the totient of 1 is printed as 0. -/
theorem C100_violated_totient : (z_totient ["1".toList]).run = ok ("0\n".toList, .val ()) ∧ Nat.totient 1 = 1 := by
  constructor <;> decide +kernel

/-- C100: an argument that is no integer ends the program with status 1, after the lines of the ones before it. -/
theorem C100_totient_bad (pre post : List (List Char)) (bad : List Char) (ns : List Int) (h : Ints pre ns)
    (hb : NotInt bad) :
    Exits (z_totient (pre ++ bad :: post)) (ns.flatMap (totientLine (1 < ns.length + 1 + post.length))) := by
  have hl := h.length_eq
  unfold z_totient
  rw [if_neg (by simp), ← List.append_nil (List.flatMap _ _)]
  refine forM_exits h (fun a n _ hn => ?_) (intArg_exits hb).bind
  have := totient1_prints (decide (1 < (pre ++ bad :: post).length)) a n hn
  simp only [List.length_append, List.length_cons, hl] at this ⊢
  have he : ns.length + (post.length + 1) = ns.length + 1 + post.length := by omega
  simpa [he] using this

example : (z_totient ["12".toList, "x".toList, "7".toList]).run = ok ("12: 4\n".toList, .exit1) := by decide +kernel

/-- One line of `z_test_prime`. -/
def primeLine (several : Prop) [Decidable several] (n : Int) : List Char :=
  lbl several n ": " ++ (if n.natAbs.Prime then "PRIME\n" else "not prime\n").toList

theorem prime1_prints (s : Bool) (a : List Char) (n : Int) (h : IsInt a n) (hn : n ≠ INT_MIN) :
    Prints (z_test_prime1 s a) (primeLine (s = true) n) () := by
  unfold z_test_prime1 primeLine
  refine (intArg_prints h).then ((prints_label s _ _).bind ((prints_lift (C07_is_prime n h.1 hn)).then ?_))
  by_cases hp : n.natAbs.Prime
  · rw [if_pos (by simpa using hp), if_pos hp]; exact prints_out _
  · rw [if_neg (by simpa using hp), if_neg hp]; exact prints_out _

/-- C100, `z_test_prime`: for all integers other than the smallest one, one line each: whether the absolute value is
prime. -/
theorem C100_test_prime (args : List (List Char)) (ns : List Int) (h : Ints args ns) (hm : ∀ n ∈ ns, n ≠ INT_MIN) :
    Prints (z_test_prime args) (ns.flatMap (primeLine (1 < ns.length))) () := by
  have hl := h.length_eq
  refine forM_prints h fun a n hn h => ?_
  simpa [hl] using prime1_prints (decide (1 < args.length)) a n h (hm n hn)

example : (z_test_prime ["91".toList, "2147483647".toList]).run =
    ok ("91: not prime\n2147483647: PRIME\n".toList, .val ()) := by decide +kernel

/-- C100: negative primes are reported as primes; without an argument nothing is printed, and the status is 0. -/
theorem C100_test_prime_negative : (z_test_prime ["-7".toList]).run = ok ("PRIME\n".toList, .val ()) ∧
    (z_test_prime []).run = ok ([], .val ()) := by constructor <;> decide +kernel

/-! ### nth_prime, z_list -/

/-- The arguments are ranges with these ends. -/
abbrev Ranges (args : List (List Char)) (rs : List (Int × Int)) : Prop :=
  List.Forall₂ (fun a r => IsRange a r.1 r.2) args rs

/-- The `n`-th prime for each `n` of the range, counted from 1, on a line of its own. -/
noncomputable def primeRange (r : Int × Int) : List Char :=
  (List.range (r.2 - r.1 + 1).toNat).flatMap fun i => showNat (Nat.nth Nat.Prime ((r.1 - 1).toNat + i)) ++ ['\n']

theorem nth_line {n : Int} (h1 : 1 ≤ n) (h2 : n ≤ 6542) :
    Prints (nth_prime_line n) (showNat (Nat.nth Nat.Prime (n - 1).toNat) ++ ['\n']) () := by
  unfold nth_prime_line
  refine (prints_lift (a := (Nat.nth Nat.Prime (n - 1).toNat : Int)) (by rw [C08_nth_prime, if_pos ⟨h1, h2⟩])).then ?_
  rw [showInt_nat]
  exact prints_out _

theorem nth1_prints {a : List Char} {r : Int × Int} (h : IsRange a r.1 r.2) (h1 : 1 ≤ r.1) (h2 : r.2 ≤ 6542) :
    Prints (nth_prime1 a) (primeRange r) () := by
  unfold nth_prime1
  refine (rangeArg_prints h).then ?_
  have := forRange_prints (txt := fun n => showNat (Nat.nth Nat.Prime (n - 1).toNat) ++ ['\n']) r.1 r.2 h.1
    (by unfold INT_MAX; omega) (fun n hn hn' => nth_line (h1.trans hn) (hn'.trans h2)) _ le_rfl
  convert this using 3
  unfold primeRange
  congr 1
  funext i
  rw [show (r.1 + (i : Int) - 1).toNat = (r.1 - 1).toNat + i by omega]

/-- C100, `nth_prime`: for ranges from 1 to 6542, the primes of these numbers in order, one per line. -/
theorem C100_nth_prime (args : List (List Char)) (rs : List (Int × Int)) (h : Ranges args rs) (hne : args ≠ [])
    (hr : ∀ r ∈ rs, 1 ≤ r.1 ∧ r.2 ≤ 6542) : Prints (nth_prime_cmd args) (rs.flatMap primeRange) () := by
  unfold nth_prime_cmd
  rw [if_neg (by have := List.length_pos_iff.2 hne; omega)]
  exact forM_prints h fun a r hm h => nth1_prints h (hr r hm).1 (hr r hm).2

example : (nth_prime_cmd ["4-6".toList, "1".toList]).run = ok ("7\n11\n13\n2\n".toList, .val ()) := by decide +kernel

/-- C100: a range that goes beyond the table prints what there is and then throws. -/
theorem C100_nth_prime_beyond (pre post : List (List Char)) (rs : List (Int × Int)) (bad : List Char) (lo hi : Int)
    (h : Ranges pre rs) (hr : ∀ r ∈ rs, 1 ≤ r.1 ∧ r.2 ≤ 6542) (hb : IsRange bad lo hi) (h1 : 1 ≤ lo) (h2 : lo ≤ 6543)
    (h3 : 6542 < hi) : ThrowsC (nth_prime_cmd (pre ++ bad :: post)) (rs.flatMap primeRange ++ primeRange (lo, 6542)) := by
  unfold nth_prime_cmd
  rw [if_neg (by simp)]
  refine forM_throws h (fun a r hm h => nth1_prints h (hr r hm).1 (hr r hm).2) ?_
  unfold nth_prime1
  have ht : ThrowsC (nth_prime_line 6543) [] := by
    unfold nth_prime_line
    exact (throws_lift (by rw [C08_nth_prime, if_neg (by omega)])).bind
  have := forRange_throws (txt := fun n => showNat (Nat.nth Nat.Prime (n - 1).toNat) ++ ['\n']) lo 6543 hi hb.1
    h2 (by omega) (by decide) (fun n hn hn' => nth_line (h1.trans hn) (by omega)) ht _ le_rfl
  have h4 := (rangeArg_prints hb).bind_throws (f := fun r => forRange nth_prime_line (r.2 - r.1 + 1).toNat r.1 r.2) this
  rw [List.nil_append] at h4
  have he : primeRange (lo, 6542) = (List.range (6543 - lo).toNat).flatMap fun i : ℕ =>
      showNat (Nat.nth Nat.Prime (lo + (i : Int) - 1).toNat) ++ ['\n'] := by
    have e1 : ∀ m : Int, m = 6542 → primeRange (lo, m) = (List.range (m + 1 - lo).toNat).flatMap fun i : ℕ =>
        showNat (Nat.nth Nat.Prime (lo + (i : Int) - 1).toNat) ++ ['\n'] := by
      intro m _
      unfold primeRange
      simp only
      rw [show (m - lo + 1).toNat = (m + 1 - lo).toNat by omega]
      refine congrArg List.flatten (List.map_congr_left fun i _ => ?_)
      rw [show (lo + (i : Int) - 1).toNat = (lo - 1).toNat + i by omega]
    exact e1 6542 rfl
  rw [he]
  exact h4

/-- `start`, `start + stride`, ..., one per line. -/
def listLines (start stride : Int) (reps : ℕ) : List Char :=
  (List.range reps).flatMap fun i : ℕ => showInt (start + i * stride) ++ ['\n']

theorem listLoop_prints (k : ℕ) (w s : Int) (hw : InInt w) (hl : InInt (w + k * s)) :
    Prints (listLoop k w s) (listLines w s k) () := by
  induction k generalizing w with
  | zero => exact prints_pure ()
  | succ k ih =>
    unfold listLoop listLines
    rw [List.range_succ_eq_map, List.flatMap_cons, List.flatMap_map]
    have h1 : InInt (w + s) := by
      push_cast at hl
      have e : w + ((k : Int) + 1) * s = w + s + k * s := by ring
      rw [e] at hl
      unfold InInt at *
      have hk : (0 : Int) ≤ k := by positivity
      rcases le_total 0 s with h | h
      · have := mul_nonneg hk h
        constructor <;> linarith [hl.1, hl.2, hw.1, hw.2]
      · have := mul_nonpos_of_nonneg_of_nonpos hk h
        constructor <;> linarith [hl.1, hl.2, hw.1, hw.2]
    refine Prints.bind (by simpa [outLine] using prints_out (showInt w ++ ['\n'])) ?_
    refine (prints_lift (a := w + s) (by unfold iadd; rw [chk_ok h1])).then ?_
    have := ih (w + s) h1 (by convert hl using 1; push_cast; ring)
    unfold listLines at this
    convert this using 3
    congr 2
    push_cast
    ring

/-- C100, `z_list start reps stride`: `reps` lines, provided the number *after* the last one is in range. -/
theorem C100_list_partial (x y z : List Char) (start reps stride : Int) (hx : IsInt x start) (hy : IsInt y reps)
    (hz : IsInt z stride) (hlast : InInt (start + reps.toNat * stride)) :
    Prints (z_list [x, y, z]) (listLines start stride reps.toNat) () ∧
    (stride = 1 → Prints (z_list [x, y]) (listLines start 1 reps.toNat) ()) ∧
    (start ≠ INT_MAX → Prints (z_list [x]) (showInt start ++ ['\n']) ()) := by
  refine ⟨?_, ?_, ?_⟩
  · exact (intArg_prints hx).then ((intArg_prints hy).then ((intArg_prints hz).then
      (listLoop_prints _ _ _ hx.1 hlast)))
  · rintro rfl
    exact (intArg_prints hx).then ((intArg_prints hy).then ((prints_pure (1 : Int)).then
      (listLoop_prints _ _ _ hx.1 hlast)))
  · intro hs
    have h1 : InInt (start + (1 : ℕ) * 1) := by
      have := hx.1; unfold InInt INT_MAX at *; omega
    have he : listLines start 1 1 = showInt start ++ ['\n'] := by simp [listLines]
    rw [← he]
    show Prints (intArg x >>= fun w => pure (1 : Int) >>= fun r => pure (1 : Int) >>= fun s => listLoop r.toNat w s) _ ()
    exact (intArg_prints hx).then ((prints_pure (1 : Int)).then ((prints_pure (1 : Int)).then
      (listLoop_prints 1 _ _ hx.1 h1)))

example : (z_list ["5".toList, "3".toList, "-4".toList]).run = ok ("5\n1\n-3\n".toList, .val ()) := by decide +kernel

/-- C100: the sum past the last line overflows. -/
theorem C100_violated_list : IsUb (z_list ["2147483647".toList]) ∧
    IsUb (z_list ["0".toList, "3".toList, "1000000000".toList]) ∧ InInt (0 + 2 * 1000000000) := by
  refine ⟨?_, ?_, by decide⟩ <;> · show _ = _; decide +kernel

/-! ### z_factor -/

/-- A prime power as it is written: the prime, and the exponent unless it is 1. -/
def powerText (p e : ℕ) : List Char := showNat p ++ if e = 1 then [] else '^' :: showNat e

/-- The factorization of `n` as it is written: `n` itself if it is `-1`, `0` or `1`; otherwise `-1` if it is negative,
and the prime powers with the primes ascending, separated by spaces. -/
def factorText (n : Int) : List Char :=
  if n.natAbs < 2 then showInt n
  else [' '].intercalate ((if n < 0 then ["-1".toList] else []) ++
    (primesOf n.natAbs).map fun p => powerText p (n.natAbs.factorization p))

theorem isFac_eq {N : ℕ} (h0 : 0 < N) {l : List (ℕ × ℕ)} (h : FacInfo.IsFac N l) :
    l = (primesOf N).map fun p => (p, N.factorization p) := by
  have hfz : ∀ (l : List (ℕ × ℕ)), (∀ q ∈ l, q.1.Prime ∧ 0 < q.2) → (l.map Prod.fst).Pairwise (· < ·) →
      ∀ q ∈ l, (FacInfo.pprod l).factorization q.1 = q.2 := by
    intro l
    induction l with
    | nil => simp
    | cons r l ih =>
      intro hp hs q hq
      rw [List.map_cons, List.pairwise_cons] at hs
      have hr := hp r (by simp)
      have hlpos : FacInfo.pprod l ≠ 0 := by
        unfold FacInfo.pprod
        rw [Ne, List.prod_eq_zero_iff, List.mem_map]
        rintro ⟨x, hx, hx0⟩
        exact pow_ne_zero _ (hp x (by simp [hx])).1.ne_zero hx0
      have he : FacInfo.pprod (r :: l) = r.1 ^ r.2 * FacInfo.pprod l := by simp [FacInfo.pprod]
      rw [he, Nat.factorization_mul (pow_ne_zero _ hr.1.ne_zero) hlpos, Finsupp.add_apply, Nat.factorization_pow,
        Finsupp.smul_apply]
      have hnd : ¬ r.1 ∣ FacInfo.pprod l := by
        unfold FacInfo.pprod
        rw [Prime.dvd_prod_iff (Nat.prime_iff.1 hr.1)]
        rintro ⟨y, hy, hd⟩
        obtain ⟨x, hx, rfl⟩ := List.mem_map.1 hy
        have := (Nat.prime_dvd_prime_iff_eq hr.1 (hp x (by simp [hx])).1).1 (hr.1.dvd_of_dvd_pow hd)
        have := hs.1 x.1 (List.mem_map.2 ⟨x, hx, rfl⟩)
        omega
      rcases List.mem_cons.1 hq with rfl | hq
      · rw [Nat.factorization_eq_zero_of_not_dvd hnd, hr.1.factorization_self]; simp
      · rw [ih (fun x hx => hp x (by simp [hx])) hs.2 q hq]
        have : r.1.factorization q.1 = 0 := by
          refine Nat.factorization_eq_zero_of_not_dvd fun hd => ?_
          have := (Nat.prime_dvd_prime_iff_eq (hp q (by simp [hq])).1 hr.1).1 hd
          have := hs.1 q.1 (List.mem_map.2 ⟨q, hq, rfl⟩)
          omega
        simp [this]
  have hfst : l.map Prod.fst = primesOf N := by
    refine sorted_ext h.sorted (primesOf_sorted N) fun p => ?_
    rw [mem_primesOf h0]
    constructor
    · intro hp
      obtain ⟨q, hq, rfl⟩ := List.mem_map.1 hp
      refine ⟨(h.prime q hq).1, ?_⟩
      rw [← h.prod]
      exact (dvd_pow_self _ (h.prime q hq).2.ne').trans (List.dvd_prod (List.mem_map.2 ⟨q, hq, rfl⟩))
    · rintro ⟨hp, hd⟩
      rw [← h.prod] at hd
      unfold FacInfo.pprod at hd
      rw [Prime.dvd_prod_iff (Nat.prime_iff.1 hp)] at hd
      obtain ⟨y, hy, hd⟩ := hd
      obtain ⟨x, hx, rfl⟩ := List.mem_map.1 hy
      rw [(Nat.prime_dvd_prime_iff_eq hp (h.prime x hx).1).1 (hp.dvd_of_dvd_pow hd)]
      exact List.mem_map.2 ⟨x, hx, rfl⟩
  rw [← hfst, List.map_map]
  refine (List.map_id l).symm.trans (List.map_congr_left fun q hq => ?_)
  have := hfz l h.prime h.sorted q hq
  rw [h.prod] at this
  simp [this]

theorem intercalate_flatMap (x : List Char) (l : List (List Char)) :
    [' '].intercalate (x :: l) = x ++ l.flatMap fun y => ' ' :: y := by
  induction l generalizing x with
  | nil => simp
  | cons y l ih => rw [List.intercalate_cons_cons, ih, List.flatMap_cons]; simp

theorem spaced_eq (l : List (List Char)) : spaced l = [' '].intercalate l := by
  cases l with
  | nil => rfl
  | cons x l => rw [intercalate_flatMap]; rfl

theorem showPower_eq (p e : ℕ) : showPower showInt ((p : Int), (e : Int)) = powerText p e := by
  unfold showPower powerText
  simp only [showInt_nat]
  by_cases h : e = 1
  · simp [h]
  · have : ((e : Int) ≠ 1) := by exact_mod_cast h
    rw [if_pos this, if_neg h]

theorem showFac_eq {n : Int} (h2 : 2 ≤ n.natAbs) {l : List (ℕ × ℕ)} (h : FacInfo.IsFac n.natAbs l) :
    showFac showInt ⟨FacInfo.stored l, if n < 0 then some (-1) else none⟩ = factorText n := by
  have hl := isFac_eq (by omega) h
  have hne : primesOf n.natAbs ≠ [] := by
    intro he
    rw [he] at hl
    have := h.prod
    rw [hl] at this
    simp [FacInfo.pprod] at this
    omega
  have hm : ∀ l : List ℕ, (FacInfo.stored (l.map fun p => (p, n.natAbs.factorization p))).map (showPower showInt) =
      l.map fun p => powerText p (n.natAbs.factorization p) := by
    intro l
    unfold FacInfo.stored
    rw [List.map_map, List.map_map]
    exact List.map_congr_left fun p _ => showPower_eq _ _
  unfold factorText
  rw [if_neg (show ¬ n.natAbs < 2 by omega), ← hm, ← hl]
  unfold showFac
  by_cases hneg : n < 0
  · simp only [if_pos hneg, List.singleton_append]
    rw [intercalate_flatMap, List.flatMap_map, show showInt (-1) = "-1".toList by decide +kernel]
  · simp only [if_neg hneg, List.nil_append]
    cases hs : FacInfo.stored l with
    | nil =>
      exfalso
      rw [hl] at hs
      unfold FacInfo.stored at hs
      simp at hs
      exact hne hs
    | cons p r => rw [List.map_cons, intercalate_flatMap, List.flatMap_map]

theorem unfactor_int {n : Int} (h2 : 2 ≤ n.natAbs) (hn : n.natAbs ≤ 2147483647) {l : List (ℕ × ℕ)}
    (h : FacInfo.IsFac n.natAbs l) :
    FacInfo.unfactor intOps ⟨FacInfo.stored l, if n < 0 then some (-1) else none⟩ 1 = ok n := by
  set u : Option Int := if n < 0 then some (-1) else none with hu
  let l2 : List (ℤ × ℕ) := l.map fun r => ((r.1 : ℤ), r.2)
  have hDen : FacInfo.Den (fun (a x : ℤ) => a = x ∧ InInt x) ⟨FacInfo.stored l, u⟩ l2 u := by
    constructor
    · unfold FacInfo.stored
      show List.Forall₂ _ (l.map _) (l.map _)
      rw [List.forall₂_map_left_iff, List.forall₂_map_right_iff, List.forall₂_same]
      intro r hr
      refine ⟨⟨rfl, ?_⟩, rfl⟩
      have : r.1 ≤ n.natAbs := by
        refine Nat.le_of_dvd h.pos ?_
        rw [← h.prod]
        exact (dvd_pow_self _ (h.prime r hr).2.ne').trans (List.dvd_prod (List.mem_map.mpr ⟨r, hr, rfl⟩))
      unfold InInt; omega
    · show Option.Rel _ u u
      by_cases hneg : n < 0
      · simp only [hu, if_pos hneg]; exact Option.Rel.some ⟨rfl, by decide⟩
      · simp only [hu, if_neg hneg]; exact Option.Rel.none
  have hv : FacInfo.prodOf (FacInfo.toMs l2) u = n := by
    unfold FacInfo.prodOf
    rw [FacInfo.toMs_prod]
    have hp : (l2.map fun q => q.1 ^ q.2).prod = ((FacInfo.pprod l : ℕ) : Int) := by
      simp only [l2, List.map_map, FacInfo.pprod]
      push_cast [Nat.cast_list_prod, List.map_map]
      congr 1
    rw [hp, h.prod, hu]
    split
    · simp only [Option.getD_some]; omega
    · simp only [Option.getD_none]; omega
  obtain ⟨r, hr, hr2, -⟩ := FacInfo.unfactor_ok facRef_int hDen (one := 1) ⟨rfl, by decide⟩
    (by rw [hv]; exact ⟨by omega, by rw [Int.abs_eq_natAbs]; exact_mod_cast hn⟩)
  rw [hr, hr2, hv]

/-- One line of `z_factor`. -/
def factorLine (several : Prop) [Decidable several] (n : Int) : List Char := lbl several n " = " ++ factorText n ++ ['\n']

theorem factor1_prints (s : Bool) (a : List Char) (n : Int) (h : IsInt a n) (hn : n ≠ INT_MIN) :
    Prints (z_factor1 s a) (factorLine (s = true) n) () := by
  have hfac : ∃ f, int_factor n = ok f ∧ showFac showInt f = factorText n ∧ FacInfo.unfactor intOps f 1 = ok n := by
    by_cases h1 : -1 ≤ n ∧ n ≤ 1
    · refine ⟨⟨[], some n⟩, by simp [int_factor, h1, FacInfo.insert_unit, FacInfo.empty], ?_, ?_⟩
      · unfold factorText; rw [if_pos (by omega)]; simp [showFac]
      · simp [FacInfo.unfactor, FacInfo.unfactor_unit, intOps, imul, chk_ok h.1]
    · have h2 : 2 ≤ n.natAbs := by omega
      have h3 : n.natAbs ≤ 2147483647 := by have := h.1; unfold InInt INT_MIN at *; omega
      obtain ⟨l, hl, hf⟩ := FacInfo.int_factor_ok h2 h3
      exact ⟨_, hl, showFac_eq h2 hf, unfactor_int h2 h3 hf⟩
  obtain ⟨f, e1, e2, e3⟩ := hfac
  unfold z_factor1 factorLine
  rw [List.append_assoc]
  refine (intArg_prints h).then ((prints_label s _ _).bind ((prints_lift e1).then ?_))
  rw [e2, ← List.append_nil (factorText n ++ _)]
  refine (prints_out _).bind ((prints_lift e3).then ?_)
  rw [if_neg (by simp)]
  exact prints_pure ()

/-- C100, `z_factor`: for all integers other than the smallest one, one line each with the prime factorization; the
check of the product never fails. -/
theorem C100_factor (args : List (List Char)) (ns : List Int) (h : Ints args ns) (hm : ∀ n ∈ ns, n ≠ INT_MIN) :
    Prints (z_factor args) (ns.flatMap (factorLine (1 < ns.length))) () := by
  have hl := h.length_eq
  refine forM_prints h fun a n hn h => ?_
  simpa [hl] using factor1_prints (decide (1 < args.length)) a n h (hm n hn)

example : (z_factor ["-360".toList, "0".toList, "131071".toList]).run =
    ok ("-360 = -1 2^3 3^2 5\n0 = 0\n131071 = 131071\n".toList, .val ()) := by decide +kernel

/-! ### z_divisors -/

/-- One line of `z_divisors`: the positive divisors, ascending. -/
def divisorsLine (several : Prop) [Decidable several] (n : Int) : List Char :=
  lbl several n ": " ++ [' '].intercalate ((divisorsOf n.natAbs).map showNat) ++ ['\n']

theorem all_divisors_abs {n : Int} (hn : n ≠ 0) (hb : n.natAbs ≤ 2147483647) (f : FacInfo Int) (hf : int_factor n = ok f) :
    ∃ g, int_factor (n.natAbs : Int) = ok g ∧
      FacInfo.get_all_divisors intOps f 1 = FacInfo.get_all_divisors intOps g 1 := by
  by_cases h1 : n.natAbs = 1
  · rcases Int.natAbs_eq n with h | h <;> rw [h1] at h <;> subst h
    · exact ⟨f, hf, rfl⟩
    · rw [show int_factor (-(1 : ℕ) : Int) = ok ⟨[], some (-1)⟩ by decide +kernel] at hf
      cases hf
      exact ⟨⟨[], some 1⟩, by decide +kernel, by decide +kernel⟩
  · have h2 : 2 ≤ n.natAbs := by omega
    obtain ⟨l, hl, hf'⟩ := FacInfo.int_factor_ok h2 hb
    obtain ⟨l', hl', hf''⟩ := FacInfo.int_factor_ok (n := (n.natAbs : Int)) (by omega) (by omega)
    rw [hf] at hl
    cases hl
    refine ⟨_, hl', ?_⟩
    have e1 := isFac_eq (by omega) hf'
    have e2 := isFac_eq (by omega) hf''
    rw [Int.natAbs_natCast] at e2
    have el : l' = l := e2.trans e1.symm
    subst el
    have hl0 : l' ≠ [] := by
      rintro rfl
      have := hf'.prod; simp [FacInfo.pprod] at this; omega
    have hs0 : (FacInfo.stored l').length ≠ 0 := by simpa [FacInfo.stored] using hl0
    unfold FacInfo.get_all_divisors FacInfo.get_num_divisors FacInfo.get_kth_divisor
    simp only [hs0, false_and, if_false]

theorem divisors1_prints (s : Bool) (a : List Char) (n : Int) (h : IsInt a n) (h0 : n ≠ 0) (hn : n ≠ INT_MIN)
    (hp : ∀ p : ℕ, p.Prime → p ∣ n.natAbs → p ^ 2 ^ Nat.size (n.natAbs.factorization p) ≤ 2147483647) :
    Prints (z_divisors1 false s a) (divisorsLine (s = true) n) () := by
  have h3 : n.natAbs ≤ 2147483647 := by have := h.1; unfold InInt INT_MIN at *; omega
  obtain ⟨f, hf, -⟩ := FacInfo.C11_int_factor n h.1 hn
  obtain ⟨g, hg, hfg⟩ := all_divisors_abs h0 h3 f hf
  obtain ⟨L, hL, hs, hmem⟩ := FacInfo.C35_all_divisors_partial (n.natAbs : Int) (by omega) (by unfold InInt; omega)
    (by rw [Int.toNat_natCast]; exact hp)
  rw [hg, ok_bind] at hL
  have hLe : L = (divisorsOf n.natAbs).map fun d : ℕ => (d : Int) := by
    refine sorted_ext hs ?_ fun d => ?_
    · rw [List.pairwise_map]
      exact ((range_sorted _).filter _).imp fun h => by exact_mod_cast h
    · rw [hmem, List.mem_map]
      constructor
      · rintro ⟨h1, h2⟩
        refine ⟨d.toNat, (mem_divisorsOf (by omega) _).2 ⟨by omega, ?_⟩, by omega⟩
        have : ((d.toNat : ℕ) : Int) ∣ (n.natAbs : Int) := by rw [Int.toNat_of_nonneg h1.le]; exact h2
        exact_mod_cast this
      · rintro ⟨k, hk, rfl⟩
        rw [mem_divisorsOf (by omega)] at hk
        exact ⟨by exact_mod_cast hk.1, by exact_mod_cast hk.2⟩
  unfold z_divisors1 divisorsLine
  rw [List.append_assoc]
  refine (intArg_prints h).then ((prints_label s _ _).bind ((prints_lift hf).then ?_))
  rw [if_neg (by simp)]
  refine (prints_lift (a := L) (by rw [hfg, hL])).then ?_
  rw [hLe, spaced_eq, List.map_map]
  have : (showInt ∘ fun d : ℕ => (d : Int)) = showNat := funext showInt_nat
  rw [this]
  exact prints_out _

/-- C100, `z_divisors`: for nonzero integers all of whose prime powers leave room for the squarings of the power
routine, one line each with the positive divisors in ascending order. -/
theorem C100_divisors_partial (args : List (List Char)) (ns : List Int) (h : Ints args ns) (hne : args ≠ [])
    (hm : ∀ n ∈ ns, n ≠ 0 ∧ n ≠ INT_MIN ∧ ∀ p : ℕ, p.Prime → p ∣ n.natAbs →
      p ^ 2 ^ Nat.size (n.natAbs.factorization p) ≤ 2147483647) :
    Prints (z_divisors args) (ns.flatMap (divisorsLine (1 < ns.length))) () := by
  have hl := h.length_eq
  have he : z_divisors args = z_divisors_from false args := by
    unfold z_divisors
    split
    · cases h with
      | cons h1 _ => exact absurd rfl (not_flag h1 (f := ['-', 'm', 'p']) (by decide +kernel))
    · rfl
  rw [he]
  unfold z_divisors_from
  rw [if_neg (by have := List.length_pos_iff.2 hne; omega)]
  refine forM_prints h fun a n hn h => ?_
  obtain ⟨h0, h1, h2⟩ := hm n hn
  simpa [hl] using divisors1_prints (decide (1 < args.length)) a n h h0 h1 h2

example : (z_divisors ["12".toList, "-9".toList]).run = ok ("12: 1 2 3 4 6 12\n-9: 1 3 9\n".toList, .val ()) := by
  decide +kernel

/-- C100: zero is said to have one divisor, and for 65537 the power routine overflows. -/
theorem C100_violated_divisors : (z_divisors ["0".toList]).run = ok ("1\n".toList, .val ()) ∧
    IsUb (z_divisors ["65537".toList]) := by
  refine ⟨by decide +kernel, ?_⟩
  show _ = _
  decide +kernel

/-- The quotients of `n` by its primes, ascending. -/
def maximalOf (n : Int) : List Int :=
  if n < 0 then (primesOf n.natAbs).map fun p : ℕ => n / (p : Int) else ((primesOf n.natAbs).map fun p : ℕ => n / (p : Int)).reverse

/-- One line of `z_divisors -mp`. -/
def maximalLine (several : Prop) [Decidable several] (n : Int) : List Char :=
  lbl several n ": " ++ (if n.natAbs < 2 then "(none)".toList else [' '].intercalate ((maximalOf n).map showInt)) ++ ['\n']

theorem maximalOf_sorted {n : Int} (h0 : n ≠ 0) : (maximalOf n).Pairwise (· < ·) := by
  have key : ∀ p q : ℕ, p ∈ primesOf n.natAbs → q ∈ primesOf n.natAbs → p < q →
      (n < 0 → n / (p : Int) < n / (q : Int)) ∧ (0 < n → n / (q : Int) < n / (p : Int)) := by
    intro p q hp hq h
    rw [mem_primesOf (by omega)] at hp hq
    obtain ⟨a, ha⟩ := Int.natCast_dvd.2 hp.2
    obtain ⟨b, hb⟩ := Int.natCast_dvd.2 hq.2
    have hp0 : (0 : Int) < p := by exact_mod_cast hp.1.pos
    have hq0 : (0 : Int) < q := by exact_mod_cast hq.1.pos
    have hpq : (p : Int) < q := by exact_mod_cast h
    have e1 : n / (p : Int) = a := by rw [ha, Int.mul_ediv_cancel_left _ hp0.ne']
    have e2 : n / (q : Int) = b := by rw [hb, Int.mul_ediv_cancel_left _ hq0.ne']
    rw [e1, e2]
    constructor
    · intro hn
      have hb0 : b < 0 := by
        by_contra hc; have := mul_nonneg hq0.le (not_lt.1 hc); omega
      by_contra hc
      nlinarith
    · intro hn
      have hb0 : 0 < b := by
        by_contra hc; have := mul_nonpos_of_nonneg_of_nonpos hq0.le (not_lt.1 hc); omega
      by_contra hc
      nlinarith
  unfold maximalOf
  have hs := primesOf_sorted n.natAbs
  by_cases h : n < 0
  · rw [if_pos h, List.pairwise_map]
    exact hs.imp_of_mem fun ha hb hab => (key _ _ ha hb hab).1 h
  · rw [if_neg h, List.pairwise_reverse, List.pairwise_map]
    exact hs.imp_of_mem fun ha hb hab => (key _ _ ha hb hab).2 (by omega)

theorem mem_maximalOf {n : Int} (h0 : n ≠ 0) (d : Int) : d ∈ maximalOf n ↔ ∃ p : ℕ, p.Prime ∧ d * p = n := by
  have : d ∈ maximalOf n ↔ d ∈ (primesOf n.natAbs).map fun p : ℕ => n / (p : Int) := by
    unfold maximalOf; split <;> simp
  rw [this, List.mem_map]
  constructor
  · rintro ⟨p, hp, rfl⟩
    rw [mem_primesOf (by omega)] at hp
    exact ⟨p, hp.1, Int.ediv_mul_cancel (Int.natCast_dvd.2 hp.2)⟩
  · rintro ⟨p, hp, he⟩
    refine ⟨p, (mem_primesOf (by omega) _).2 ⟨hp, Int.natCast_dvd.1 ⟨d, by rw [← he]; ring⟩⟩, ?_⟩
    have hp0 : (p : Int) ≠ 0 := by exact_mod_cast hp.pos.ne'
    rw [← he, Int.mul_ediv_cancel _ hp0]

theorem maximal1_prints (s : Bool) (a : List Char) (n : Int) (h : IsInt a n) (hn : n ≠ INT_MIN) :
    Prints (z_divisors1 true s a) (maximalLine (s = true) n) () := by
  unfold z_divisors1 maximalLine
  rw [List.append_assoc]
  by_cases h1 : n.natAbs < 2
  · refine (intArg_prints h).then ((prints_label s _ _).bind ((prints_lift (a := ⟨[], some n⟩) ?_).then ?_))
    · have : -1 ≤ n ∧ n ≤ 1 := by omega
      simp [int_factor, this, FacInfo.insert_unit, FacInfo.empty]
    · rw [if_pos rfl]
      refine (prints_lift (a := none) (by simp [FacInfo.get_maximal_proper_divisors])).then ?_
      rw [if_pos h1]
      exact prints_out _
  · obtain ⟨f, hf, -⟩ := FacInfo.C11_int_factor n h.1 hn
    obtain ⟨L, hL, hs, hmem⟩ := FacInfo.C35_maximal_divisors n (by omega) h.1 hn
    rw [hf, ok_bind] at hL
    have hLe : L = maximalOf n :=
      sorted_ext hs (maximalOf_sorted (by omega)) fun d => by rw [hmem, mem_maximalOf (by omega)]
    refine (intArg_prints h).then ((prints_label s _ _).bind ((prints_lift hf).then ?_))
    rw [if_pos rfl, if_neg h1]
    refine (prints_lift hL).then ?_
    rw [hLe, ← spaced_eq]
    exact prints_out _

/-- C100, `z_divisors -mp`: for all integers other than the smallest one, one line each with the quotients by the
primes in ascending order, or `(none)`. -/
theorem C100_maximal_divisors (args : List (List Char)) (ns : List Int) (h : Ints args ns) (hne : args ≠ [])
    (hm : ∀ n ∈ ns, n ≠ INT_MIN) :
    Prints (z_divisors ("-mp".toList :: args)) (ns.flatMap (maximalLine (1 < ns.length))) () := by
  have hl := h.length_eq
  show Prints (z_divisors_from true args) _ ()
  unfold z_divisors_from
  rw [if_neg (by have := List.length_pos_iff.2 hne; omega)]
  refine forM_prints h fun a n hn h => ?_
  simpa [hl] using maximal1_prints (decide (1 < args.length)) a n h (hm n hn)

example : (z_divisors ["-mp".toList, "12".toList, "-30".toList, "1".toList]).run =
    ok ("12: 4 6\n-30: -15 -10 -6\n1: (none)\n".toList, .val ()) := by decide +kernel

/-! ### Arguments that are not integers; the exit status -/

/-- C100: every one of these commands ends with status 1 and without output if its first argument is no integer. -/
theorem C100_bad_argument (bad : List Char) (args : List (List Char)) (hb : NotInt bad) (he : bad ≠ "-e".toList)
    (hmp : bad ≠ "-mp".toList) :
    Exits (z_gcd (bad :: args)) [] ∧ Exits (z_lcm (bad :: args)) [] ∧ Exits (z_totient (bad :: args)) [] ∧
    Exits (z_test_prime (bad :: args)) [] ∧ Exits (nth_prime_cmd (bad :: args)) [] ∧ Exits (z_list (bad :: args)) [] ∧
    Exits (z_factor (bad :: args)) [] ∧ Exits (z_divisors (bad :: args)) [] := by
  have hx := intArg_exits hb
  refine ⟨?_, hx.bind, ?_, hx.bind.bind, ?_, ?_, hx.bind.bind, ?_⟩
  · have : z_gcd (bad :: args) = foldCmd int_gcd (bad :: args) := by
      unfold z_gcd
      split
      · rename_i h; cases h; exact absurd rfl he
      · rfl
    rw [this]
    exact hx.bind
  · unfold z_totient
    rw [if_neg (by simp)]
    exact hx.bind.bind
  · unfold nth_prime_cmd
    rw [if_neg (by simp)]
    exact (rangeArg_exits hb).bind.bind
  · unfold z_list
    split
    · exact exits_exit1
    · exact hx.bind
  · have : z_divisors (bad :: args) = z_divisors_from false (bad :: args) := by
      unfold z_divisors
      split
      · rename_i h; cases h; exact absurd rfl hmp
      · rfl
    rw [this]
    unfold z_divisors_from
    rw [if_neg (by simp)]
    exact hx.bind.bind

/-- C100, the exit status: 1 if a command was left by `exit(1)`; after printing its result, a command gives 0. -/
theorem C100_status (T : Table) (c : List Char) (f : List (List Char) → Spffl.Cmd.Cmd Unit) (args : List (List Char))
    (t : List Char) (h : dispatch T c args = some (f args)) :
    (Prints (f args) t () → spiff T (c :: args) = ok (t, 0)) ∧ (Exits (f args) t → spiff T (c :: args) = ok (t, 1)) := by
  constructor <;> intro h' <;> simp only [spiff, h, Res.bind, Prints, Exits] at h' ⊢ <;> rw [h']

example : spiff zTable ["z_factor".toList, "91".toList] = ok ("7 13\n".toList, 0) ∧
    spiff zTable ["z_factor".toList, "ninetyone".toList] = ok ([], 1) := by constructor <;> decide +kernel

/-- C100: an exception and an unknown command also give status 0, in every table. -/
theorem C100_violated_status (T : Table) (c : List Char) (args : List (List Char)) :
    (dispatch T c args = none → spiff T (c :: args) = ok ([], 0)) ∧
    (∀ x t, dispatch T c args = some x → ThrowsC x t → spiff T (c :: args) = ok (t, 0)) := by
  constructor
  · intro h; simp only [spiff, h]
  · intro x t h h'
    simp only [spiff, h, Res.bind, ThrowsC] at h' ⊢
    rw [h']

/-- C100: the table of primes cannot be reached by the command's own name. -/
theorem C100_violated_nth_prime_name : spiff zTable ["nth_prime".toList, "5".toList] = ok ([], 0) ∧
    spiff zTable ["spffl::intmath::nth_prime".toList, "5".toList] = ok ("11\n".toList, 0) ∧
    spiff zTable ["spffl::intmath::nth_prime".toList, "0".toList] = ok ([], 0) := by
  refine ⟨?_, ?_, ?_⟩ <;> decide +kernel

end Spffl.Props.Cmd100
