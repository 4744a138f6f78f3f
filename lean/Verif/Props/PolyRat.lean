/-
Properties C75 (quotients of F2 polynomials) and C87 (quotients of polynomials over Fp and F2^n).

Values are elements of Mathlib's field of rational functions `RatFunc K`; `frac n d` is n/d in it.
-/
import Verif.Proof.PolyRat
import Verif.Props.CPoly

namespace Spffl.Props
open Res Polynomial

namespace Rat

/-- The rational function n/d. -/
noncomputable def frac {K : Type} [Field K] (n d : K[X]) : RatFunc K :=
  algebraMap K[X] (RatFunc K) n / algebraMap K[X] (RatFunc K) d

end Rat

namespace F2Rat
open F2P Rat

/-- An f2_polyrat_t object in lowest terms with value `f`. -/
structure Rep (a : PRat F2P) (f : RatFunc (ZMod 2)) : Prop where
  cn : Canon a.numer
  cd : Canon a.denom
  d0 : toPoly a.denom ≠ 0
  coprime : IsCoprime (toPoly a.numer) (toPoly a.denom)
  val : f = frac (toPoly a.numer) (toPoly a.denom)

open Classical in
theorem rep_iff {a : PRat F2P} {f : RatFunc (ZMod 2)} : PRat.Rep F2P.PRep a f ↔ Rep a f := by
  have key : ∀ n d : (ZMod 2)[X], EuclideanDomain.gcd d n = 1 ↔ IsCoprime n d := by
    intro n d
    rw [isCoprime_comm, ← EuclideanDomain.gcd_isUnit_iff]
    refine ⟨fun h => by rw [h]; exact isUnit_one, fun h => ?_⟩
    obtain ⟨r, hr, e⟩ := Polynomial.isUnit_iff.mp h
    have : r = 1 := by
      have h2 : ∀ r : ZMod 2, r ≠ 0 → r = 1 := by decide
      exact h2 r hr.ne_zero
    rw [← e, this, C_1]
  constructor
  · rintro ⟨n, d, ⟨⟨h1, rfl⟩, ⟨h2, rfl⟩, h3, h4⟩, h5⟩
    exact ⟨h1, h2, h3, (key _ _).mp h5, h4⟩
  · rintro ⟨h1, h2, h3, h4, h5⟩
    exact ⟨_, _, ⟨⟨h1, rfl⟩, ⟨h2, rfl⟩, h3, h5⟩, (key _ _).mpr h4⟩

abbrev O := F2P.rops

variable {a b : PRat F2P} {f g : RatFunc (ZMod 2)}

/-- C75: construction from a numerator and a denominator reduces to lowest terms; a zero denominator is refused. -/
theorem C75_mk {n d : F2P} (hn : Canon n) (hd : Canon d) :
    (toPoly d ≠ 0 → (PRat.mk2 O n d).Ok fun r => Rep r (frac (toPoly n) (toPoly d))) ∧
    (toPoly d = 0 → PRat.mk2 O n d = throw) := by
  classical
  refine ⟨fun h => ?_, fun h => ?_⟩
  · exact (sat_false.mp (PRat.simplify_sat F2P.ratRef (a := ⟨n, d⟩) ⟨hn.good, rfl⟩ ⟨hd.good, rfl⟩ h)).mono
      fun r hr => rep_iff.mp hr
  · exact throws_false.mp (PRat.simplify_throw F2P.ratRef (a := ⟨n, d⟩) ⟨hd.good, h⟩)

/-- C75: conversion from a polynomial. -/
theorem C75_of_poly {n : F2P} (hn : Canon n) :
    (PRat.mk1 O n).Ok fun r => Rep r (algebraMap (ZMod 2)[X] (RatFunc (ZMod 2)) (toPoly n)) := by
  classical
  exact (sat_false.mp (PRat.mk1_sat F2P.ratRef ⟨hn, rfl⟩)).mono fun r hr => rep_iff.mp hr

/-- C75: the arithmetic operators are those of the field of fractions, and keep lowest terms. -/
theorem C75_arith (ha : Rep a f) (hb : Rep b g) :
    (PRat.add O a b).Ok (fun r => Rep r (f + g)) ∧ (PRat.sub O a b).Ok (fun r => Rep r (f - g)) ∧
    (PRat.mul O a b).Ok (fun r => Rep r (f * g)) ∧ (PRat.neg O a).Ok (fun r => Rep r (-f)) ∧
    (g ≠ 0 → (PRat.div O a b).Ok fun r => Rep r (f / g)) ∧ (g = 0 → PRat.div O a b = throw) ∧
    (g ≠ 0 → (PRat.mod O a b).Ok fun r => Rep r 0) ∧ (g = 0 → PRat.mod O a b = throw) := by
  classical
  have hb0 := rep_iff.mpr hb
  obtain ⟨n, d, ha', -⟩ := rep_iff.mpr ha
  obtain ⟨n', d', hb', -⟩ := rep_iff.mpr hb
  refine ⟨?_, ?_, ?_, ?_, fun h => ?_, fun h => ?_, fun h => ?_, fun h => ?_⟩
  · exact (sat_false.mp (PRat.add_sat F2P.ratRef ha' hb')).mono fun r hr => rep_iff.mp hr
  · exact (sat_false.mp (PRat.sub_sat F2P.ratRef ha' hb')).mono fun r hr => rep_iff.mp hr
  · exact (sat_false.mp (PRat.mul_sat F2P.ratRef ha' hb')).mono fun r hr => rep_iff.mp hr
  · show (PRat.neg F2P.rops a).Ok _
    unfold PRat.neg
    show (F2P.neg a.numer >>= _).Ok _
    unfold F2P.neg
    rw [ok_bind, Ok_ok]
    have e : -f = f := by
      have : (2 : RatFunc (ZMod 2)) = 0 := by
        have := congrArg (algebraMap (ZMod 2)[X] (RatFunc (ZMod 2))) F2P.two_eq_zero
        rwa [map_ofNat, map_zero] at this
      linear_combination (-f) * this
    rw [e]; exact ha
  · exact (sat_false.mp (PRat.div_sat F2P.ratRef ha' hb' h)).mono fun r hr => rep_iff.mp hr
  · subst h
    exact throws_false.mp (PRat.div_throw F2P.ratRef ha' hb')
  · exact (sat_false.mp (PRat.mod_sat F2P.ratRef hb0 h a)).mono fun r hr => rep_iff.mp hr
  · subst h
    exact throws_false.mp (PRat.mod_throw F2P.ratRef hb0 a)

/-- C75: equality of objects is equality of fractions, also against a polynomial. -/
theorem C75_eq (ha : Rep a f) (hb : Rep b g) {q : F2P} (hq : Canon q) :
    (PRat.eq O a b).Ok (fun r => r = true ↔ f = g) ∧
    (PRat.eqPoly O a q).Ok (fun r => r = true ↔ f = algebraMap (ZMod 2)[X] (RatFunc (ZMod 2)) (toPoly q)) := by
  classical
  exact ⟨sat_false.mp (PRat.eq_sat F2P.ratRef (rep_iff.mpr ha) (rep_iff.mpr hb)),
    sat_false.mp (PRat.eqPoly_sat F2P.ratRef (rep_iff.mpr ha) ⟨hq, rfl⟩)⟩

/-- C75: powers, for every exponent but INT_MIN; zero to an exponent at most 0 is refused. -/
theorem C75_exp (ha : Rep a f) {e : Int} (he : -INT_MAX ≤ e) (he' : e ≤ INT_MAX) :
    (0 < e ∨ f ≠ 0 → (PRat.exp O a e).Ok fun r => Rep r (f ^ e)) ∧
    (¬ (0 < e ∨ f ≠ 0) → PRat.exp O a e = throw) := by
  classical
  unfold INT_MAX at he he'
  refine ⟨fun h => ?_, fun h => ?_⟩
  · exact (sat_false.mp (PRat.exp_sat F2P.ratRef (rep_iff.mpr ha) he he' h)).mono fun r hr => rep_iff.mp hr
  · rw [not_or, not_not] at h
    obtain ⟨h1, rfl⟩ := h
    exact throws_false.mp (PRat.exp_throw F2P.ratRef (rep_iff.mpr ha) (by omega))

/-- C75 fails for the exponent INT_MIN: its negation overflows. -/
theorem C75_violated_int_min (ha : Rep a f) (hf : f ≠ 0) : PRat.exp O a INT_MIN = ub := by
  classical
  exact PRat.exp_int_min F2P.ratRef (rep_iff.mpr ha) hf

/-- C75: the comparisons are total and consistent with each other and with equality. -/
theorem C75_compare (ha : Rep a f) (hb : Rep b g) : ∃ l r : Bool, PRat.lt O a b = ok l ∧ PRat.gt O a b = ok r ∧
    PRat.le O a b = ok (!r) ∧ PRat.ge O a b = ok (!l) ∧ PRat.lt O b a = ok r ∧ (l && r) = false ∧
    ((l || r) = false ↔ f = g) := by
  classical
  obtain ⟨n, d, ha', h1⟩ := rep_iff.mpr ha
  obtain ⟨n', d', hb', h2⟩ := rep_iff.mpr hb
  have H := F2P.ratRef
  obtain ⟨l, el, hl⟩ := sat_false.mp (PRat.cross_sat H H.lt ha' hb')
  obtain ⟨r, er, hr⟩ := sat_false.mp (PRat.cross_sat H H.gt ha' hb')
  obtain ⟨x, ex, hx⟩ := sat_false.mp (PRat.cross_sat (R := fun x y => ¬ nval y < nval x) H H.le ha' hb')
  obtain ⟨y, ey, hy⟩ := sat_false.mp (PRat.cross_sat (R := fun x y => ¬ nval x < nval y) H H.ge ha' hb')
  obtain ⟨z, ez, hz⟩ := sat_false.mp (PRat.cross_sat H H.lt hb' ha')
  rw [mul_comm n' d, mul_comm d' n] at hz
  have e1 : x = !r := by
    rw [Bool.eq_iff_iff, hx, Bool.not_eq_true', ← Bool.not_eq_true, hr]
  have e2 : y = !l := by
    rw [Bool.eq_iff_iff, hy, Bool.not_eq_true', ← Bool.not_eq_true, hl]
  have e3 : z = r := by rw [Bool.eq_iff_iff, hz, hr]
  refine ⟨l, r, el, er, e1 ▸ ex, e2 ▸ ey, e3 ▸ ez, ?_, ?_⟩
  · rw [Bool.and_eq_false_iff, ← Bool.not_eq_true, ← Bool.not_eq_true, hl, hr]; omega
  · rw [Bool.or_eq_false_iff, ← Bool.not_eq_true, ← Bool.not_eq_true, hl, hr, ha'.val, hb'.val,
      frac_eq ha'.d0 hb'.d0, mul_comm n' d]
    refine ⟨fun h => nval_inj (by omega), fun h => by rw [h]; simp⟩

/-- An f2_polyrat_t from the bits of numerator and denominator. -/
def lit (n d : BitVec 64) : PRat F2P := ⟨[n], [d]⟩

/-- C75 fails for the order: the comparisons are not transitive.  1 < (x+1)/x < (x^2+1)/(x^2+x+1) < 1. -/
theorem C75_violated_order : PRat.mk2 O [1] [1] = ok (lit 1 1) ∧ PRat.mk2 O [3] [2] = ok (lit 3 2) ∧
    PRat.mk2 O [5] [7] = ok (lit 5 7) ∧ PRat.lt O (lit 1 1) (lit 3 2) = ok true ∧
    PRat.lt O (lit 3 2) (lit 5 7) = ok true ∧ PRat.lt O (lit 5 7) (lit 1 1) = ok true := by
  decide +kernel

/-- (x^2+1)/(x^2+x) = (x+1)/x; plus 1/x^2 is (x^2+x+1)/x^2; its power -2 is x^4/(x^4+x^2+1). -/
example : PRat.mk2 O [5] [6] = ok (lit 3 2) ∧ PRat.add O (lit 3 2) (lit 1 4) = ok (lit 7 4) ∧
    PRat.exp O (lit 7 4) (-2) = ok (lit 16 21) ∧ PRat.div O (lit 3 2) (lit 0 1) = throw ∧
    PRat.eq O (lit 3 2) (lit 3 2) = ok true := by decide +kernel

end F2Rat

namespace CRat
open Rat CPoly CP

section
variable {α K : Type} [Field K] {rep : α → K → Prop}

/-- An object whose numerator and denominator denote polynomials n and d with value `f` = n/d. -/
structure Val (rep : α → K → Prop) (a : PRat (CPoly α)) (f : RatFunc K) (n d : K[X]) : Prop where
  hn : PRep rep a.numer n
  hd : PRep rep a.denom d
  d0 : d ≠ 0
  val : f = frac n d

open Classical in
/-- In addition the last non-zero remainder of the Euclidean algorithm is 1 (so that n and d are coprime, and the
fraction is determined by its value). -/
def Norm (rep : α → K → Prop) (a : PRat (CPoly α)) (f : RatFunc K) : Prop :=
  ∃ n d, Val rep a f n d ∧ EuclideanDomain.gcd d n = 1

theorem val_iff {a : PRat (CPoly α)} {f : RatFunc K} {n d : K[X]} :
    PRat.VRep (PRep rep) a f n d ↔ Val rep a f n d :=
  ⟨fun ⟨h1, h2, h3, h4⟩ => ⟨h1, h2, h3, h4⟩, fun ⟨h1, h2, h3, h4⟩ => ⟨h1, h2, h3, h4⟩⟩

open Classical in
theorem norm_iff {a : PRat (CPoly α)} {f : RatFunc K} : PRat.Rep (PRep rep) a f ↔ Norm rep a f :=
  ⟨fun ⟨n, d, h1, h2⟩ => ⟨n, d, val_iff.mp h1, h2⟩, fun ⟨n, d, h1, h2⟩ => ⟨n, d, val_iff.mpr h1, h2⟩⟩

/-- All that is claimed of the class over the coefficient operations `O`: construction, arithmetic on objects whether
or not they are normal, with normal results, equality, powers and comparisons. -/
structure Arith (O : CoefOps α) (rep : α → K → Prop) : Prop where
  ctor : ∀ {x y : CPoly α} {n d : K[X]}, PRep rep x n → PRep rep y d →
    (d ≠ 0 → (PRat.mk2 (rops O) x y).Ok fun r => Norm rep r (frac n d)) ∧ (d = 0 → PRat.mk2 (rops O) x y = throw)
  of_poly : ∀ {x : CPoly α} {n : K[X]}, PRep rep x n →
    (PRat.mk1 (rops O) x).Ok fun r => Norm rep r (algebraMap K[X] (RatFunc K) n)
  arith : ∀ {a b : PRat (CPoly α)} {f g : RatFunc K} {n d n' d' : K[X]}, Val rep a f n d → Val rep b g n' d' →
    (PRat.add (rops O) a b).Ok (fun r => Norm rep r (f + g)) ∧ (PRat.sub (rops O) a b).Ok (fun r => Norm rep r (f - g)) ∧
    (PRat.mul (rops O) a b).Ok (fun r => Norm rep r (f * g)) ∧
    (g ≠ 0 → (PRat.div (rops O) a b).Ok fun r => Norm rep r (f / g)) ∧ (g = 0 → PRat.div (rops O) a b = throw)
  mod : ∀ {a b : PRat (CPoly α)} {g : RatFunc K}, Norm rep b g →
    (g ≠ 0 → (PRat.mod (rops O) a b).Ok fun r => Norm rep r 0) ∧ (g = 0 → PRat.mod (rops O) a b = throw)
  eq : ∀ {a b : PRat (CPoly α)} {f g : RatFunc K}, Norm rep a f → Norm rep b g →
    (PRat.eq (rops O) a b).Ok fun r => r = true ↔ f = g
  eq_poly : ∀ {a : PRat (CPoly α)} {f : RatFunc K} {q : CPoly α} {x : K[X]}, Norm rep a f → PRep rep q x →
    (PRat.eqPoly (rops O) a q).Ok fun r => r = true ↔ f = algebraMap K[X] (RatFunc K) x
  exp : ∀ {a : PRat (CPoly α)} {f : RatFunc K} {e : Int}, Norm rep a f → -INT_MAX ≤ e → e ≤ INT_MAX →
    (0 < e ∨ f ≠ 0 → (PRat.exp (rops O) a e).Ok fun r => Norm rep r (f ^ e)) ∧
    (¬ (0 < e ∨ f ≠ 0) → PRat.exp (rops O) a e = throw)
  compare : ∀ {a b : PRat (CPoly α)} {f g : RatFunc K} {n d n' d' : K[X]}, Val rep a f n d → Val rep b g n' d' →
    ∃ l r : Bool, PRat.lt (rops O) a b = ok l ∧ PRat.gt (rops O) a b = ok r ∧ PRat.le (rops O) a b = ok (!r) ∧
      PRat.ge (rops O) a b = ok (!l) ∧ PRat.lt (rops O) b a = ok r ∧ (l && r) = false ∧ ((l || r) = false ↔ f = g)

theorem arith_of {O : CoefOps α} {ord : K → K → Prop} (H0 : CoefRef False O rep ord) : Arith O rep := by
  classical
  have H := CPoly.ratRef H0
  constructor
  · intro x y n d hx hy
    refine ⟨fun h => ?_, fun h => ?_⟩
    · exact (sat_false.mp (PRat.simplify_sat H (a := ⟨x, y⟩) hx hy h)).mono fun r hr => norm_iff.mp hr
    · subst h
      exact throws_false.mp (PRat.simplify_throw H (a := ⟨x, y⟩) hy)
  · intro x n hx
    exact (sat_false.mp (PRat.mk1_sat H hx)).mono fun r hr => norm_iff.mp hr
  · intro a b f g n d n' d' ha hb
    have ha' := val_iff.mpr ha
    have hb' := val_iff.mpr hb
    refine ⟨?_, ?_, ?_, fun h => ?_, fun h => ?_⟩
    · exact (sat_false.mp (PRat.add_sat H ha' hb')).mono fun r hr => norm_iff.mp hr
    · exact (sat_false.mp (PRat.sub_sat H ha' hb')).mono fun r hr => norm_iff.mp hr
    · exact (sat_false.mp (PRat.mul_sat H ha' hb')).mono fun r hr => norm_iff.mp hr
    · exact (sat_false.mp (PRat.div_sat H ha' hb' h)).mono fun r hr => norm_iff.mp hr
    · subst h
      exact throws_false.mp (PRat.div_throw H ha' hb')
  · intro a b g hb
    refine ⟨fun h => ?_, fun h => ?_⟩
    · exact (sat_false.mp (PRat.mod_sat H (norm_iff.mpr hb) h a)).mono fun r hr => norm_iff.mp hr
    · subst h
      exact throws_false.mp (PRat.mod_throw H (norm_iff.mpr hb) a)
  · intro a b f g ha hb
    exact sat_false.mp (PRat.eq_sat H (norm_iff.mpr ha) (norm_iff.mpr hb))
  · intro a f q x ha hq
    exact sat_false.mp (PRat.eqPoly_sat H (norm_iff.mpr ha) hq)
  · intro a f e ha he he'
    unfold INT_MAX at he he'
    refine ⟨fun h => ?_, fun h => ?_⟩
    · exact (sat_false.mp (PRat.exp_sat H (norm_iff.mpr ha) he he' h)).mono fun r hr => norm_iff.mp hr
    · rw [not_or, not_not] at h
      obtain ⟨h1, rfl⟩ := h
      exact throws_false.mp (PRat.exp_throw H (norm_iff.mpr ha) (by omega))
  · intro a b f g n d n' d' ha hb
    have ha' := val_iff.mpr ha
    have hb' := val_iff.mpr hb
    obtain ⟨l, el, hl⟩ := sat_false.mp (PRat.cross_sat H H.lt ha' hb')
    obtain ⟨r, er, hr⟩ := sat_false.mp (PRat.cross_sat H H.gt ha' hb')
    obtain ⟨x, ex, hx⟩ := sat_false.mp (PRat.cross_sat (R := fun x y => ¬ polyLt ord y x) H H.le ha' hb')
    obtain ⟨y, ey, hy⟩ := sat_false.mp (PRat.cross_sat (R := fun x y => ¬ polyLt ord x y) H H.ge ha' hb')
    obtain ⟨z, ez, hz⟩ := sat_false.mp (PRat.cross_sat H H.lt hb' ha')
    rw [mul_comm n' d, mul_comm d' n] at hz
    have e1 : x = !r := by
      rw [Bool.eq_iff_iff, hx, Bool.not_eq_true', ← Bool.not_eq_true, hr]
    have e2 : y = !l := by
      rw [Bool.eq_iff_iff, hy, Bool.not_eq_true', ← Bool.not_eq_true, hl]
    have e3 : z = r := by rw [Bool.eq_iff_iff, hz, hr]
    refine ⟨l, r, el, er, e1 ▸ ex, e2 ▸ ey, e3 ▸ ez, ?_, ?_⟩
    · rw [Bool.and_eq_false_iff, ← Bool.not_eq_true, ← Bool.not_eq_true, hl, hr]
      by_cases h : polyLt ord (n * d') (d * n')
      · exact Or.inr (polyLt_asymm H0 h)
      · exact Or.inl h
    · rw [Bool.or_eq_false_iff, ← Bool.not_eq_true, ← Bool.not_eq_true, hl, hr, ha'.val, hb'.val,
        frac_eq ha'.d0 hb'.d0, mul_comm n' d]
      refine ⟨fun h => ?_, fun h => by rw [h]; exact ⟨polyLt_irrefl H0 _, polyLt_irrefl H0 _⟩⟩
      rcases polyLt_total H0 (n * d') (d * n') with h' | h' | h'
      · exact h'
      · exact absurd h' h.1
      · exact absurd h' h.2

/-- gcd of a non-constant polynomial and a non-zero constant -/
theorem gcd_const [DecidableEq K[X]] {d : K[X]} (hd : 0 < d.natDegree) {c : K} (hc : c ≠ 0) :
    EuclideanDomain.gcd d (C c) = C c := by
  have hd0 : d ≠ 0 := by rintro rfl; simp at hd
  have h1 : C c % d = C c := by
    rw [Polynomial.mod_eq_self_iff hd0, degree_C hc]
    exact natDegree_pos_iff_degree_pos.mp hd
  have h2 : d % C c = 0 := by
    rw [EuclideanDomain.mod_eq_zero]
    exact (isUnit_C.mpr hc.isUnit).dvd
  rw [EuclideanDomain.gcd_val, h1, EuclideanDomain.gcd_val, h2, EuclideanDomain.gcd_zero_left]

/-- The unary minus in terms of that of the polynomials. -/
theorem neg_val {O : CoefOps α} {ord : K → K → Prop} (H : CoefRef False O rep ord) {a : PRat (CPoly α)} {f : RatFunc K}
    {n d : K[X]} (ha : Val rep a f n d) :
    (n.natDegree = 0 → (PRat.neg (rops O) a).Ok fun r => Val rep r (-f) (-n) d) ∧
    (0 < n.natDegree → PRat.neg (rops O) a = ub) := by
  refine ⟨fun h => ?_, fun h => ?_⟩
  · show (CPoly.neg O a.numer >>= _).Ok _
    refine (sat_false.mp (neg_const_sat H ha.hn (ha.hn.deg ▸ h))).bind fun r hr => ?_
    rw [Ok_ok]
    refine ⟨hr, ha.hd, ha.d0, ?_⟩
    rw [ha.val, frac, frac, map_neg, neg_div]
  · show (CPoly.neg O a.numer >>= _) = ub
    rw [neg_ub H ha.hn (ha.hn.deg ▸ h), ub_bind]

end

/-! ### Over Fp -/

section
variable {p : ℕ} [hp : Fact p.Prime]

abbrev FpVal (p : ℕ) [Fact p.Prime] := Val (IntMod.Rep p)
abbrev FpNorm (p : ℕ) [Fact p.Prime] := Norm (IntMod.Rep p)
abbrev OP := rops IntMod.cops

/-- C87 for Fp. -/
theorem C87_fp (hm : p ≤ 46341) : Arith IntMod.cops (IntMod.Rep p) := arith_of (IntMod.cops_ref hp.out.two_le hm)

/-- C87: unary minus, only for constant numerators; for others see `C87_violated_neg_ub`. -/
theorem C87_neg_partial (hm : p ≤ 46341) {a : PRat (CPoly IntMod)} {f : RatFunc (ZMod p)} {n d : (ZMod p)[X]}
    (ha : FpVal p a f n d) (hn : n.natDegree = 0) : (PRat.neg OP a).Ok fun r => FpVal p r (-f) (-n) d :=
  (neg_val (IntMod.cops_ref hp.out.two_le hm) ha).1 hn

/-- C87 fails for unary minus: with a non-constant numerator it writes out of bounds. -/
theorem C87_violated_neg_ub (hm : p ≤ 46341) {a : PRat (CPoly IntMod)} {f : RatFunc (ZMod p)} {n d : (ZMod p)[X]}
    (ha : FpVal p a f n d) (hn : 0 < n.natDegree) : PRat.neg OP a = ub :=
  (neg_val (IntMod.cops_ref hp.out.two_le hm) ha).2 hn

/-- C87 fails for unary minus and equality: for odd p, -(1/d) is not recognised as equal to any object for the same
fraction obtained otherwise. -/
theorem C87_violated_neg_eq (hm : p ≤ 46341) (h2 : p ≠ 2) {a c : PRat (CPoly IntMod)} {f : RatFunc (ZMod p)}
    {d : (ZMod p)[X]} (hd : 0 < d.natDegree) (ha : FpVal p a f 1 d) (hc : FpNorm p c (-f)) :
    (PRat.neg OP a).Ok fun b => (∃ n, FpVal p b (-f) n d) ∧ PRat.eq OP b c = ok false := by
  classical
  refine (C87_neg_partial hm ha (by simp)).mono fun b hb => ⟨⟨_, hb⟩, ?_⟩
  obtain ⟨n', d', hc, h1⟩ := hc
  obtain ⟨r, e, hr⟩ := sat_false.mp (PRat.eq_vsat (CPoly.ratRef (IntMod.cops_ref hp.out.two_le hm)) (val_iff.mpr hb)
    (val_iff.mpr hc))
  rw [e]
  congr 1
  rw [Bool.eq_false_iff]
  intro h
  obtain ⟨rfl, rfl⟩ := hr.mp h
  have hc1 : (-1 : (ZMod p)[X]) = C (-1) := by simp
  have hne : (-1 : ZMod p) ≠ 0 := neg_ne_zero.mpr one_ne_zero
  have h3 : EuclideanDomain.gcd d (-1) = C (-1) := by rw [hc1]; exact gcd_const hd hne
  have h4 : (C (-1) : (ZMod p)[X]) = C 1 := by rw [C_1, ← h1, ← h3]; congr!
  have h5 : (-1 : ZMod p) = 1 := C_injective h4
  have : Fact (2 < p) := ⟨by have := hp.out.two_le; omega⟩
  exact ZMod.neg_one_ne_one h5

/-- 1/x over F_5: minus it is 4/x, its normal form is 1/(4x). -/
example : PRat.neg OP ⟨⟨0, [⟨1, 5⟩]⟩, ⟨1, [⟨0, 5⟩, ⟨1, 5⟩]⟩⟩ = ok ⟨⟨0, [⟨4, 5⟩]⟩, ⟨1, [⟨0, 5⟩, ⟨1, 5⟩]⟩⟩ ∧
    PRat.mk2 OP ⟨0, [⟨4, 5⟩]⟩ ⟨1, [⟨0, 5⟩, ⟨1, 5⟩]⟩ = ok ⟨⟨0, [⟨1, 5⟩]⟩, ⟨1, [⟨0, 5⟩, ⟨4, 5⟩]⟩⟩ := by decide +kernel

/-- (x^2 - 1)/(x^2 + x) = (x - 1)/x over F_7, in some multiple; 1/x - 1/(x+1) = 1/(x^2+x). -/
example : PRat.mk2 OP ⟨2, [⟨6, 7⟩, ⟨0, 7⟩, ⟨1, 7⟩]⟩ ⟨2, [⟨0, 7⟩, ⟨1, 7⟩, ⟨1, 7⟩]⟩ =
      ok ⟨⟨1, [⟨1, 7⟩, ⟨6, 7⟩]⟩, ⟨1, [⟨0, 7⟩, ⟨6, 7⟩]⟩⟩ ∧
    PRat.sub OP ⟨⟨0, [⟨1, 7⟩]⟩, ⟨1, [⟨0, 7⟩, ⟨1, 7⟩]⟩⟩ ⟨⟨0, [⟨1, 7⟩]⟩, ⟨1, [⟨1, 7⟩, ⟨1, 7⟩]⟩⟩ =
      ok ⟨⟨0, [⟨1, 7⟩]⟩, ⟨2, [⟨0, 7⟩, ⟨1, 7⟩, ⟨1, 7⟩]⟩⟩ := by decide +kernel

end

/-! ### Over F2^n -/

section
variable {m : (ZMod 2)[X]} [hm : Fact (Irreducible m)]

/-- C87 for F2^n. -/
theorem C87_f2n : Arith F2Mod.cops (F2Mod.Rep m) := arith_of (F2Mod.cops_ref hm.out.ne_zero)

/-- C87: unary minus over F2^n: right on constant numerators, undefined on all others. -/
theorem C87_f2n_neg_partial {a : PRat (CPoly F2Mod)} {f : RatFunc (AdjoinRoot m)} {n d : (AdjoinRoot m)[X]}
    (ha : Val (F2Mod.Rep m) a f n d) :
    (n.natDegree = 0 → (PRat.neg (rops F2Mod.cops) a).Ok fun r => Val (F2Mod.Rep m) r (-f) (-n) d) ∧
    (0 < n.natDegree → PRat.neg (rops F2Mod.cops) a = ub) :=
  neg_val (F2Mod.cops_ref hm.out.ne_zero) ha

/-- Over F_4 = F2[t]/(t^2+t+1): t/(t y) = 1/y in some multiple. -/
example : PRat.mk2 (rops F2Mod.cops) ⟨0, [⟨[2], [7]⟩]⟩ ⟨1, [⟨[0], [7]⟩, ⟨[2], [7]⟩]⟩ =
    ok ⟨⟨0, [⟨[1], [7]⟩]⟩, ⟨1, [⟨[0], [7]⟩, ⟨[1], [7]⟩]⟩⟩ := by decide +kernel

end
end CRat
end Spffl.Props
