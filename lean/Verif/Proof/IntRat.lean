/-
Correctness of the intrat_t model: refinement of the field of rationals, up to `int` overflow.
-/
import Verif.Model.IntRat
import Verif.Proof.IntMath
import Verif.Proof.CPoly
import Mathlib.Data.Int.GCD
import Mathlib.Tactic.FieldSimp

namespace Spffl
open Res

theorem chk_sat {x : Int} : (chk x).Sat True (fun r => r = x ∧ InInt x) := by
  unfold chk; split
  · rename_i h; exact ⟨rfl, h⟩
  · trivial

namespace IntRat

/-- `a` is the canonical representative of `q`: lowest terms, positive denominator, parts representable.
(`INT_MIN` never occurs as a numerator, because simplification cannot take its absolute value.) -/
structure Rep (a : IntRat) (q : ℚ) : Prop where
  pos : 0 < a.denom
  inD : InInt a.denom
  inN : InInt a.numer
  ne : a.numer ≠ INT_MIN
  cop : Int.gcd a.numer a.denom = 1
  val : (a.numer : ℚ) / a.denom = q

theorem Rep.d_ne {a : IntRat} {q : ℚ} (h : Rep a q) : (a.denom : ℚ) ≠ 0 := by
  have := h.pos; exact_mod_cast this.ne'

theorem Rep.d_pos {a : IntRat} {q : ℚ} (h : Rep a q) : (0 : ℚ) < a.denom := by
  have := h.pos; exact_mod_cast this

theorem Rep.num_eq {a : IntRat} {q : ℚ} (h : Rep a q) : a.numer = q.num ∧ a.denom = q.den := by
  have hc : a.numer.natAbs.Coprime a.denom.natAbs := h.cop
  have h1 := Rat.num_div_eq_of_coprime h.pos hc
  have h2 := Rat.den_div_eq_of_coprime h.pos hc
  rw [h.val] at h1 h2
  exact ⟨h1.symm, h2.symm⟩

theorem Rep.inj {a b : IntRat} {q : ℚ} (ha : Rep a q) (hb : Rep b q) : a = b := by
  obtain ⟨h1, h2⟩ := ha.num_eq
  obtain ⟨h3, h4⟩ := hb.num_eq
  cases a; cases b; simp_all

theorem reduce_ok {n d : Int} (hn : InInt n) (hd : InInt d) (hn' : n ≠ INT_MIN) (hpos : 0 < d) :
    (do let g ← int_gcd n d
        let x ← idiv n g
        let y ← idiv d g
        ok (⟨x, y⟩ : IntRat)).Ok (fun r => Rep r ((n : ℚ) / d)) := by
  have hdm : d ≠ INT_MIN := by unfold INT_MIN; omega
  have hg : int_gcd n d = ok (Int.gcd n d : Int) := by
    by_cases h0 : n = 0
    · subst h0
      rw [int_gcd_zero_left, Int.gcd_zero_left]; congr 1; omega
    · exact int_gcd_nonzero hn hd h0 (by omega) hn' hdm
  have hgpos : 0 < Int.gcd n d := Int.gcd_pos_of_ne_zero_right n (by omega)
  obtain ⟨n', d', hc, h1, h2⟩ := Int.exists_gcd_one hgpos
  set g : Int := (Int.gcd n d : Int) with hgd
  have hg0 : 0 < g := by rw [hgd]; exact_mod_cast hgpos
  have e1 : n.tdiv g = n' := by rw [h1]; exact Int.mul_tdiv_cancel _ hg0.ne'
  have e2 : d.tdiv g = d' := by rw [h2]; exact Int.mul_tdiv_cancel _ hg0.ne'
  have hd'pos : 0 < d' := by
    by_contra hc
    have : d' * g ≤ 0 := Int.mul_nonpos_of_nonpos_of_nonneg (by omega) hg0.le
    omega
  have an : |n'| ≤ |n| := by
    conv_rhs => rw [h1, abs_mul, abs_of_pos hg0]
    exact le_mul_of_one_le_right (abs_nonneg _) (by omega)
  have ad : d' ≤ d := by
    conv_rhs => rw [h2]
    exact le_mul_of_one_le_right hd'pos.le (by omega)
  unfold InInt INT_MIN at *
  have bn : -2147483647 ≤ n' ∧ n' ≤ 2147483647 := by
    have : |n| ≤ 2147483647 := abs_le.mpr (by omega)
    exact abs_le.mp (an.trans this)
  rw [hg, ok_bind]
  unfold idiv
  rw [if_neg hg0.ne', e1, chk_ok (by unfold InInt; omega), ok_bind, if_neg hg0.ne', e2,
    chk_ok (by unfold InInt; omega), ok_bind, Ok_ok]
  refine ⟨hd'pos, by unfold InInt; dsimp only; omega, by unfold InInt; dsimp only; omega, by unfold INT_MIN; dsimp only; omega, hc, ?_⟩
  have hgq : (g : ℚ) ≠ 0 := by exact_mod_cast hg0.ne'
  conv_rhs => rw [h1, h2]
  push_cast
  rw [mul_div_mul_right _ _ hgq]

/-- the exact outcome of simplification -/
theorem simplify_ok {n d : Int} (hn : InInt n) (hd : InInt d) (hn' : n ≠ INT_MIN) (hd' : d ≠ INT_MIN) (h0 : d ≠ 0) :
    (simplify ⟨n, d⟩).Ok (fun r => Rep r ((n : ℚ) / d)) := by
  unfold simplify normSign
  rw [if_neg h0]
  unfold InInt INT_MIN at *
  by_cases hneg : d < 0
  · rw [if_pos hneg]
    unfold ineg
    simp only []
    rw [chk_ok (x := -n) (by unfold InInt; omega), ok_bind, chk_ok (x := -d) (by unfold InInt; omega), ok_bind, ok_bind]
    have := reduce_ok (n := -n) (d := -d) (by unfold InInt; omega) (by unfold InInt; omega) (by unfold INT_MIN; omega) (by omega)
    push_cast at this
    rwa [neg_div_neg_eq] at this
  · rw [if_neg hneg, ok_bind]
    exact reduce_ok (n := n) (d := d) (by unfold InInt; omega) (by unfold InInt; omega) (by unfold INT_MIN; omega)
      (by omega)

theorem simplify_throw (n : Int) : simplify ⟨n, 0⟩ = throw := by simp [simplify]

theorem gcd_ub {n d : Int} (h0 : n ≠ 0) (hd0 : d ≠ 0) (h : n = INT_MIN) : int_gcd n d = ub := by
  subst h
  unfold int_gcd
  rw [if_neg h0, if_neg hd0]
  have : absInt INT_MIN = ub := by decide
  rw [this]; rfl

theorem simplify_ub {n d : Int} (hn : InInt n) (h0 : d ≠ 0) (h : n = INT_MIN ∨ d = INT_MIN) :
    simplify ⟨n, d⟩ = ub := by
  unfold simplify normSign
  rw [if_neg h0]
  simp only []
  by_cases hneg : d < 0
  · rw [if_pos hneg]
    by_cases hnm : n = INT_MIN
    · subst hnm
      have : ineg INT_MIN = ub := by decide
      rw [this]; rfl
    · have hd : d = INT_MIN := by tauto
      subst hd
      have : ineg INT_MIN = ub := by decide
      unfold ineg
      unfold InInt INT_MIN at *
      rw [chk_ok (x := -n) (by unfold InInt; omega), ok_bind]
      rfl
  · rw [if_neg hneg, ok_bind]
    have hnm : n = INT_MIN := by
      rcases h with h | h
      · exact h
      · subst h; exact absurd (by decide) hneg
    rw [gcd_ub (by rw [hnm]; decide) h0 hnm]; rfl

theorem simplify_sat {n d : Int} (hn : InInt n) (hd : InInt d) (h0 : d ≠ 0) :
    (simplify ⟨n, d⟩).Sat True (fun r => Rep r ((n : ℚ) / d)) := by
  by_cases h : n = INT_MIN ∨ d = INT_MIN
  · rw [simplify_ub hn h0 h]; trivial
  · push Not at h
    exact (simplify_ok hn hd h.1 h.2 h0).sat

variable {a b : IntRat} {x y : ℚ}

theorem ofInt_sat {n : Int} (hn : InInt n) : (ofInt n).Sat True (fun r => Rep r (n : ℚ)) := by
  have := simplify_sat hn (d := 1) (by decide) (by decide)
  unfold ofInt; simpa using this

theorem ofInt_ok {n : Int} (hn : InInt n) (h : n ≠ INT_MIN) : (ofInt n).Ok (fun r => Rep r (n : ℚ)) := by
  have := simplify_ok hn (d := 1) (by decide) h (by decide) (by decide)
  unfold ofInt; simpa using this

theorem add_val (ha : Rep a x) (hb : Rep b y) :
    ((a.numer * b.denom + a.denom * b.numer : Int) : ℚ) / ((a.denom * b.denom : Int) : ℚ) = x + y := by
  have h1 := ha.d_ne; have h2 := hb.d_ne
  rw [← ha.val, ← hb.val]; push_cast; field_simp

theorem sub_val (ha : Rep a x) (hb : Rep b y) :
    ((a.numer * b.denom - a.denom * b.numer : Int) : ℚ) / ((a.denom * b.denom : Int) : ℚ) = x - y := by
  have h1 := ha.d_ne; have h2 := hb.d_ne
  rw [← ha.val, ← hb.val]; push_cast; field_simp

theorem mul_val (ha : Rep a x) (hb : Rep b y) :
    ((a.numer * b.numer : Int) : ℚ) / ((a.denom * b.denom : Int) : ℚ) = x * y := by
  rw [← ha.val, ← hb.val]; push_cast; rw [div_mul_div_comm]

theorem div_val (ha : Rep a x) (hb : Rep b y) :
    ((a.numer * b.denom : Int) : ℚ) / ((a.denom * b.numer : Int) : ℚ) = x / y := by
  rw [← ha.val, ← hb.val]; push_cast; rw [div_div_div_eq]

theorem dd_ne (ha : Rep a x) (hb : Rep b y) : a.denom * b.denom ≠ 0 := mul_ne_zero ha.pos.ne' hb.pos.ne'

theorem num_ne (hb : Rep b y) : b.numer ≠ 0 ↔ y ≠ 0 := by
  rw [← hb.val, div_ne_zero_iff, and_iff_left hb.d_ne, Int.cast_ne_zero]

theorem add_sat (ha : Rep a x) (hb : Rep b y) : (add a b).Sat True (fun r => Rep r (x + y)) := by
  unfold add imul iadd
  refine chk_sat.bind ?_
  rintro p ⟨rfl, _⟩
  refine chk_sat.bind ?_
  rintro q ⟨rfl, _⟩
  refine chk_sat.bind ?_
  rintro n ⟨rfl, hn⟩
  refine chk_sat.bind ?_
  rintro d ⟨rfl, hd⟩
  rw [← add_val ha hb]
  exact simplify_sat hn hd (dd_ne ha hb)

theorem sub_sat (ha : Rep a x) (hb : Rep b y) : (sub a b).Sat True (fun r => Rep r (x - y)) := by
  unfold sub imul isub
  refine chk_sat.bind ?_
  rintro p ⟨rfl, _⟩
  refine chk_sat.bind ?_
  rintro q ⟨rfl, _⟩
  refine chk_sat.bind ?_
  rintro n ⟨rfl, hn⟩
  refine chk_sat.bind ?_
  rintro d ⟨rfl, hd⟩
  rw [← sub_val ha hb]
  exact simplify_sat hn hd (dd_ne ha hb)

theorem mul_sat (ha : Rep a x) (hb : Rep b y) : (mul a b).Sat True (fun r => Rep r (x * y)) := by
  unfold mul imul
  refine chk_sat.bind ?_
  rintro p ⟨rfl, hn⟩
  refine chk_sat.bind ?_
  rintro q ⟨rfl, hd⟩
  rw [← mul_val ha hb]
  exact simplify_sat hn hd (dd_ne ha hb)

theorem div_sat (ha : Rep a x) (hb : Rep b y) (hy : y ≠ 0) : (div a b).Sat True (fun r => Rep r (x / y)) := by
  unfold div imul
  refine chk_sat.bind ?_
  rintro p ⟨rfl, hn⟩
  refine chk_sat.bind ?_
  rintro q ⟨rfl, hd⟩
  rw [← div_val ha hb]
  exact simplify_sat hn hd (mul_ne_zero ha.pos.ne' ((num_ne hb).mpr hy))

theorem div_zero_throw (hb : Rep b 0) : (div a b).Throws True := by
  have h0 : b.numer = 0 := by
    by_contra h; exact (num_ne hb).mp h rfl
  unfold div imul
  refine chk_sat.throws_bind ?_
  rintro p ⟨rfl, hn⟩
  refine chk_sat.throws_bind ?_
  rintro q ⟨rfl, hd⟩
  rw [h0, mul_zero, simplify_throw]; exact Or.inl rfl

theorem neg_ok (ha : Rep a x) : (neg a).Ok (fun r => Rep r (-x)) := by
  have h1 := ha.inN
  have h2 := ha.ne
  unfold neg ineg
  unfold InInt INT_MIN at *
  rw [chk_ok (by unfold InInt; omega), ok_bind, Ok_ok]
  refine ⟨ha.pos, ha.inD, by unfold InInt; dsimp only; omega, by unfold INT_MIN; dsimp only; omega, ?_, ?_⟩
  · show Int.gcd (-a.numer) a.denom = 1; rw [Int.neg_gcd]; exact ha.cop
  · push_cast; rw [neg_div, ha.val]

theorem eq_ok (ha : Rep a x) (hb : Rep b y) : eq a b = ok (decide (x = y)) := by
  have key : x = y ↔ a.numer = b.numer ∧ a.denom = b.denom := by
    constructor
    · rintro rfl; have := ha.inj hb; subst this; exact ⟨rfl, rfl⟩
    · rintro ⟨h1, h2⟩; rw [← ha.val, ← hb.val, h1, h2]
  unfold eq
  split
  · rename_i h; congr 1; rw [eq_comm, decide_eq_false_iff_not, key]; tauto
  · split
    · rename_i h; congr 1; rw [eq_comm, decide_eq_false_iff_not, key]; tauto
    · rename_i h h'; congr 1; rw [eq_comm, decide_eq_true_iff, key]; push Not at h h'; exact ⟨h, h'⟩

theorem eqInt_ok (ha : Rep a x) (v : Int) : eqInt a v = ok (decide (x = v)) := by
  obtain ⟨h1, h2⟩ := ha.num_eq
  unfold eqInt
  split
  · rename_i h
    congr 1
    rw [eq_comm, decide_eq_false_iff_not]
    rintro rfl
    apply h; rw [h2]; simp
  · rename_i h
    push Not at h
    congr 1
    rw [Bool.eq_iff_iff, beq_iff_eq, decide_eq_true_iff]
    rw [← ha.val, h]
    simp

theorem cross_sat (ha : Rep a x) (hb : Rep b y) : (cross a b).Sat True (fun c =>
    ((c.1 : ℚ) = x * (a.denom * b.denom) ∧ (c.2 : ℚ) = y * (a.denom * b.denom)) ∧ (0 : ℚ) < a.denom * b.denom) := by
  have h1 := ha.d_ne; have h2 := hb.d_ne
  unfold cross imul
  refine chk_sat.bind ?_
  rintro p ⟨rfl, hn⟩
  refine chk_sat.bind ?_
  rintro q ⟨rfl, hd⟩
  rw [Sat_ok]
  refine ⟨⟨?_, ?_⟩, mul_pos ha.d_pos hb.d_pos⟩
  · rw [← ha.val]; push_cast; field_simp
  · rw [← hb.val]; push_cast; field_simp

theorem lt_iff {p q : Int} {d : ℚ} (h1 : (p : ℚ) = x * d) (h2 : (q : ℚ) = y * d) (hd : 0 < d) : p < q ↔ x < y := by
  rw [← Int.cast_lt (R := ℚ), h1, h2]
  exact mul_lt_mul_iff_left₀ hd

theorem cops_ref : CoefRef True IntRat.cops Rep (fun x y : ℚ => x < y) where
  add := add_sat
  sub := sub_sat
  mul := mul_sat
  neg h := (neg_ok h).sat
  div := by
    intro a b x y z h h' hz
    have hy : y ≠ 0 := left_ne_zero_of_mul_eq_one hz
    have : x * z = x / y := by rw [eq_div_iff hy, mul_assoc, mul_comm z, hz, mul_one]
    rw [this]; exact div_sat h h' hy
  div_throw := by
    intro a b x y h h' hu
    have hy : y = 0 := by by_contra hc; exact hu (Ne.isUnit hc)
    subst hy; exact div_zero_throw h'
  eq := by
    intro a b x y h h'
    show (IntRat.eq a b).Sat _ _
    rw [eq_ok h h', Sat_ok, decide_eq_true_iff]
  lt := by
    intro a b x y h h'
    refine (cross_sat h h').bind ?_
    rintro c ⟨⟨h1, h2⟩, h3⟩
    rw [Sat_ok, decide_eq_true_iff]; exact lt_iff h1 h2 h3
  gt := by
    intro a b x y h h'
    refine (cross_sat h h').bind ?_
    rintro c ⟨⟨h1, h2⟩, h3⟩
    rw [Sat_ok, decide_eq_true_iff]; exact lt_iff h2 h1 h3
  psub := fun v hv _ => ofInt_sat hv
  recip := by
    intro a x h hx
    show (do let one ← ofInt 1; let r ← div one a; ok (some r)).Sat _ _
    refine (ofInt_sat (by decide)).bind fun o ho => ?_
    refine (div_sat ho h hx).bind fun r hr => ?_
    rw [Sat_ok]
    refine ⟨_, hr, ?_⟩
    rw [Int.cast_one, mul_one_div, div_self hx]
  isZero := by
    intro a x h
    show (IntRat.eqInt a 0).Sat _ _
    rw [eqInt_ok h, Sat_ok, decide_eq_true_iff, Int.cast_zero]
  irrefl x := lt_irrefl x
  asymm x y := lt_asymm
  total x y := by
    rcases lt_trichotomy x y with h | h | h
    · exact Or.inr (Or.inl h)
    · exact Or.inl h
    · exact Or.inr (Or.inr h)

theorem cops_mulNat {a : IntRat} {x : ℚ} (h : Rep a x) {n : ℕ} (hn : InInt n) :
    (IntRat.cops.mulNat a n).Sat True (fun r => Rep r (x * (n : ℚ))) := by
  show (do let k ← ofInt n; mul a k).Sat _ _
  refine (ofInt_sat hn).bind fun k hk => ?_
  rw [Int.cast_natCast] at hk
  exact mul_sat h hk

end IntRat
end Spffl
