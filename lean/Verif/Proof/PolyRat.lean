/-
Quotients of polynomials: the arithmetic of the classes in Model/PolyRat is that of the field of rational functions,
and what `simplify` produces is a normal form.

`EuclideanDomain.gcd` (Mathlib) on polynomials over a field is the last non-zero remainder, not normalised; it is exactly
what the code computes, and it is homogeneous.  So a fraction n/d with `gcd d n = 1` is determined by its value.
-/
import Verif.Model.PolyRat
import Verif.Proof.CoefInst
import Verif.Proof.F2Factor
import Mathlib.FieldTheory.RatFunc.Basic

namespace Spffl
open Res Polynomial

/-! ### The Euclidean algorithm without normalisation -/

section
variable {K : Type} [Field K]

theorem mul_mod_mul {h : K[X]} (hh : h ≠ 0) (a b : K[X]) : (h * b) % (h * a) = h * (b % a) := by
  by_cases ha : a = 0
  · subst ha; simp
  have e := EuclideanDomain.div_add_mod b a
  refine (poly_div_mod_unique (q := b / a) (r := h * (b % a)) ?_ ?_).2
  · linear_combination -h * e
  · rw [degree_mul, degree_mul]
    have h1 : (b % a).degree < a.degree := EuclideanDomain.mod_lt b ha
    obtain ⟨n, hn⟩ : ∃ n : ℕ, h.degree = n := ⟨_, degree_eq_natDegree hh⟩
    rw [hn]
    exact WithBot.add_lt_add_left (WithBot.natCast_ne_bot n) h1

theorem gcd_mul_mul [DecidableEq K[X]] {h : K[X]} (hh : h ≠ 0) (a b : K[X]) :
    EuclideanDomain.gcd (h * a) (h * b) = h * EuclideanDomain.gcd a b := by
  induction a, b using EuclideanDomain.GCD.induction with
  | H0 x => simp
  | H1 a b ha ih =>
    rw [EuclideanDomain.gcd_val, mul_mod_mul hh, ih, ← EuclideanDomain.gcd_val]

/-- A fraction in lowest terms in this sense is determined by its value. -/
theorem lowest_unique [DecidableEq K[X]] {n d n' d' : K[X]} (hd : d ≠ 0) (hd' : d' ≠ 0) (h : EuclideanDomain.gcd d n = 1)
    (h' : EuclideanDomain.gcd d' n' = 1) (e : n * d' = n' * d) : n = n' ∧ d = d' := by
  have h1 := gcd_mul_mul hd' d n
  have h2 := gcd_mul_mul hd d' n'
  rw [h, mul_one, mul_comm d' n, e, mul_comm n' d, mul_comm d' d, h2, h', mul_one] at h1
  refine ⟨?_, h1⟩
  subst h1
  exact mul_right_cancel₀ hd e

theorem frac_eq {n d n' d' : K[X]} (hd : d ≠ 0) (hd' : d' ≠ 0) :
    algebraMap K[X] (RatFunc K) n / algebraMap K[X] (RatFunc K) d =
      algebraMap K[X] (RatFunc K) n' / algebraMap K[X] (RatFunc K) d' ↔ n * d' = n' * d := by
  rw [div_eq_div_iff (RatFunc.algebraMap_ne_zero hd) (RatFunc.algebraMap_ne_zero hd'), ← map_mul, ← map_mul]
  exact (RatFunc.algebraMap_injective K).eq_iff
end

/-- What is used of a polynomial class: `rep` ties an object to a polynomial, `wrep` is its weaker form for products,
which over F2 may be a zero with several words. -/
structure RatRef (U : Prop) {P K : Type} [Field K] [DecidableEq K[X]] (O : RatOps P) (rep wrep : P → K[X] → Prop)
    (ord : K[X] → K[X] → Prop) : Prop where
  weak : ∀ {a x}, rep a x → wrep a x
  nz : ∀ {a x}, wrep a x → x ≠ 0 → rep a x
  add : ∀ {a b x y}, wrep a x → wrep b y → (O.add a b).Sat U fun r => rep r (x + y)
  sub : ∀ {a b x y}, wrep a x → wrep b y → (O.sub a b).Sat U fun r => rep r (x - y)
  mul : ∀ {a b x y}, rep a x → rep b y → (O.mul a b).Sat U fun r => wrep r (x * y)
  div : ∀ {a b y q}, wrep a (y * q) → rep b y → y ≠ 0 → (O.div a b).Sat U fun r => rep r q
  gcd : ∀ {a b x y}, wrep a x → rep b y → (O.gcd a b).Sat U fun r => rep r (EuclideanDomain.gcd y x) ∨ y = 0
  eq : ∀ {a b x y}, wrep a x → wrep b y → (O.eq a b).Sat U fun r => r = true ↔ x = y
  lt : ∀ {a b x y}, wrep a x → wrep b y → (O.lt a b).Sat U fun r => r = true ↔ ord x y
  gt : ∀ {a b x y}, wrep a x → wrep b y → (O.gt a b).Sat U fun r => r = true ↔ ord y x
  le : ∀ {a b x y}, wrep a x → wrep b y → (O.le a b).Sat U fun r => r = true ↔ ¬ ord y x
  ge : ∀ {a b x y}, wrep a x → wrep b y → (O.ge a b).Sat U fun r => r = true ↔ ¬ ord x y
  isZero : ∀ {a x}, wrep a x → (O.isZero a).Sat U fun r => r = true ↔ x = 0
  psub : ∀ {a x} (v : Int), InInt v → rep a x → (O.psub a v).Sat U fun r => rep r (C (v : K))
  irrefl : ∀ x, ¬ ord x x
  asymm : ∀ x y, ord x y → ¬ ord y x
  total : ∀ x y, x = y ∨ ord x y ∨ ord y x

namespace PRat
variable {U : Prop} {P K : Type} [Field K] [DecidableEq K[X]] {O : RatOps P} {rep wrep : P → K[X] → Prop}
  {ord : K[X] → K[X] → Prop}

local notation "φ" => algebraMap K[X] (RatFunc K)

/-- `a` holds a fraction of value `f`. -/
structure VRep (rep : P → K[X] → Prop) (a : PRat P) (f : RatFunc K) (n d : K[X]) : Prop where
  hn : rep a.numer n
  hd : rep a.denom d
  d0 : d ≠ 0
  val : f = φ n / φ d

/-- `a` holds the normal form of `f`. -/
def Rep (rep : P → K[X] → Prop) (a : PRat P) (f : RatFunc K) : Prop :=
  ∃ n d, VRep rep a f n d ∧ EuclideanDomain.gcd d n = 1

theorem phi_ne {d : K[X]} (h : d ≠ 0) : φ d ≠ 0 := RatFunc.algebraMap_ne_zero h

theorem simplify_sat (H : RatRef U O rep wrep ord) {a : PRat P} {n d : K[X]} (hn : wrep a.numer n)
    (hd : wrep a.denom d) (h0 : d ≠ 0) : (simplify O a).Sat U fun r => Rep rep r (φ n / φ d) := by
  unfold simplify
  refine (H.isZero hd).bind fun z hz => ?_
  have : z = false := by rw [Bool.eq_false_iff]; exact fun h => h0 (hz.mp h)
  rw [this, if_neg (by simp)]
  have hd' := H.nz hd h0
  refine (H.gcd hn hd').bind fun g hg => ?_
  replace hg := hg.resolve_right h0
  set G := EuclideanDomain.gcd d n with hG
  have hG0 : G ≠ 0 := fun h => h0 (EuclideanDomain.gcd_eq_zero_iff.mp h).1
  obtain ⟨d', ed⟩ := EuclideanDomain.gcd_dvd_left d n
  obtain ⟨n', en⟩ := EuclideanDomain.gcd_dvd_right d n
  rw [← hG] at ed en
  rw [en] at hn
  rw [ed] at hd
  refine (H.div hn hg hG0).bind fun x hx => (H.div hd hg hG0).bind fun y hy => ?_
  rw [Sat_ok]
  have hd0' : d' ≠ 0 := by rintro rfl; exact h0 (by rw [ed, mul_zero])
  refine ⟨n', d', ⟨hx, hy, hd0', ?_⟩, ?_⟩
  · rw [frac_eq h0 hd0', en, ed]; ring
  · have h1 : EuclideanDomain.gcd (G * d') (G * n') = G * EuclideanDomain.gcd d' n' :=
      gcd_mul_mul hG0 d' n'
    rw [← ed, ← en, ← hG] at h1
    exact (mul_left_cancel₀ hG0 (by rw [mul_one]; exact h1)).symm

theorem simplify_throw (H : RatRef U O rep wrep ord) {a : PRat P} (hd : wrep a.denom 0) : (simplify O a).Throws U := by
  unfold simplify
  refine (H.isZero hd).throws_bind fun z hz => ?_
  rw [hz.mpr rfl, if_pos rfl]; exact Or.inl rfl

theorem mk1_sat (H : RatRef U O rep wrep ord) {a : P} {x : K[X]} (ha : rep a x) :
    (mk1 O a).Sat U fun r => Rep rep r (φ x) := by
  unfold mk1
  refine (H.psub 1 (by decide) ha).bind fun d hd => ?_
  refine (simplify_sat H (a := ⟨a, d⟩) (H.weak ha) (H.weak hd) (by simp)).mono fun r hr => ?_
  simpa using hr

section
variable {a b : PRat P} {f g : RatFunc K} {n d n' d' : K[X]}

theorem add_sat (H : RatRef U O rep wrep ord) (ha : VRep rep a f n d) (hb : VRep rep b g n' d') :
    (add O a b).Sat U fun r => Rep rep r (f + g) := by
  unfold add
  refine (H.mul ha.hn hb.hd).bind fun x hx => (H.mul ha.hd hb.hn).bind fun y hy => (H.add hx hy).bind fun s hs =>
    (H.mul ha.hd hb.hd).bind fun t ht => ?_
  refine (simplify_sat H (a := ⟨s, t⟩) (H.weak hs) ht (mul_ne_zero ha.d0 hb.d0)).mono fun r hr => ?_
  convert hr using 1
  rw [ha.val, hb.val, div_add_div _ _ (phi_ne ha.d0) (phi_ne hb.d0)]; simp

theorem sub_sat (H : RatRef U O rep wrep ord) (ha : VRep rep a f n d) (hb : VRep rep b g n' d') :
    (sub O a b).Sat U fun r => Rep rep r (f - g) := by
  unfold sub
  refine (H.mul ha.hn hb.hd).bind fun x hx => (H.mul ha.hd hb.hn).bind fun y hy => (H.sub hx hy).bind fun s hs =>
    (H.mul ha.hd hb.hd).bind fun t ht => ?_
  refine (simplify_sat H (a := ⟨s, t⟩) (H.weak hs) ht (mul_ne_zero ha.d0 hb.d0)).mono fun r hr => ?_
  convert hr using 1
  rw [ha.val, hb.val, div_sub_div _ _ (phi_ne ha.d0) (phi_ne hb.d0)]; simp

theorem mul_sat (H : RatRef U O rep wrep ord) (ha : VRep rep a f n d) (hb : VRep rep b g n' d') :
    (mul O a b).Sat U fun r => Rep rep r (f * g) := by
  unfold mul
  refine (H.mul ha.hn hb.hn).bind fun s hs => (H.mul ha.hd hb.hd).bind fun t ht => ?_
  refine (simplify_sat H (a := ⟨s, t⟩) hs ht (mul_ne_zero ha.d0 hb.d0)).mono fun r hr => ?_
  convert hr using 1
  rw [ha.val, hb.val, div_mul_div_comm]; simp

theorem VRep.eq_zero_iff (hb : VRep rep b g n' d') : g = 0 ↔ n' = 0 := by
  rw [hb.val, div_eq_zero_iff]
  simp [hb.d0]

theorem div_sat (H : RatRef U O rep wrep ord) (ha : VRep rep a f n d) (hb : VRep rep b g n' d') (hg : g ≠ 0) :
    (div O a b).Sat U fun r => Rep rep r (f / g) := by
  unfold div
  have hn' : n' ≠ 0 := fun h => hg (hb.eq_zero_iff.mpr h)
  refine (H.mul ha.hn hb.hd).bind fun s hs => (H.mul ha.hd hb.hn).bind fun t ht => ?_
  refine (simplify_sat H (a := ⟨s, t⟩) hs ht (mul_ne_zero ha.d0 hn')).mono fun r hr => ?_
  convert hr using 1
  rw [ha.val, hb.val, div_div_div_eq]; simp

theorem div_throw (H : RatRef U O rep wrep ord) (ha : VRep rep a f n d) (hb : VRep rep b 0 n' d') :
    (div O a b).Throws U := by
  unfold div
  have hn' : n' = 0 := hb.eq_zero_iff.mp rfl
  refine (H.mul ha.hn hb.hd).throws_bind fun s hs => (H.mul ha.hd hb.hn).throws_bind fun t ht => ?_
  rw [hn', mul_zero] at ht
  exact simplify_throw H ht

/-- Equality of objects is equality of numerators and denominators; on normal forms, equality of values. -/
theorem eq_vsat (H : RatRef U O rep wrep ord) (ha : VRep rep a f n d) (hb : VRep rep b g n' d') :
    (eq O a b).Sat U fun r => r = true ↔ n = n' ∧ d = d' := by
  unfold eq
  refine (H.eq (H.weak ha.hn) (H.weak hb.hn)).bind fun x hx => ?_
  cases x with
  | false => rw [Bool.not_false, if_pos rfl, Sat_ok]; simpa using fun h => absurd (hx.mpr h) (by simp)
  | true =>
    rw [Bool.not_true, if_neg (by simp)]
    refine (H.eq (H.weak ha.hd) (H.weak hb.hd)).bind fun y hy => ?_
    cases y with
    | false => rw [Bool.not_false, if_pos rfl, Sat_ok]; simpa using fun _ h => absurd (hy.mpr h) (by simp)
    | true => rw [Bool.not_true, if_neg (by simp), Sat_ok]; simpa using ⟨hx.mp rfl, hy.mp rfl⟩

theorem eq_sat (H : RatRef U O rep wrep ord) (ha : Rep rep a f) (hb : Rep rep b g) :
    (eq O a b).Sat U fun r => r = true ↔ f = g := by
  obtain ⟨n, d, ha, h1⟩ := ha
  obtain ⟨n', d', hb, h2⟩ := hb
  refine (eq_vsat H ha hb).mono fun r hr => hr.trans ⟨?_, fun h => ?_⟩
  · rintro ⟨rfl, rfl⟩; rw [ha.val, hb.val]
  · rw [ha.val, hb.val, frac_eq ha.d0 hb.d0] at h
    exact lowest_unique ha.d0 hb.d0 h1 h2 h

theorem eqPoly_sat (H : RatRef U O rep wrep ord) (ha : Rep rep a f) {q : P} {x : K[X]} (hq : rep q x) :
    (eqPoly O a q).Sat U fun r => r = true ↔ f = φ x := by
  obtain ⟨n, d, ha, h1⟩ := ha
  have key : f = φ x ↔ d = 1 ∧ n = x := by
    have e : (φ x : RatFunc K) = φ x / φ 1 := by simp
    rw [ha.val, e, frac_eq ha.d0 one_ne_zero]
    refine ⟨fun h => ?_, ?_⟩
    · have := lowest_unique (n := n) (d := d) (n' := x) (d' := 1) ha.d0 one_ne_zero h1
        (EuclideanDomain.gcd_one_left _) h
      exact ⟨this.2, this.1⟩
    · rintro ⟨rfl, rfl⟩; ring
  unfold eqPoly
  refine (H.psub 1 (by decide) ha.hn).bind fun o ho => (H.eq (H.weak ha.hd) (H.weak ho)).bind fun y hy => ?_
  rw [Int.cast_one, C_1] at hy
  cases y with
  | false =>
    rw [Bool.not_false, if_pos rfl, Sat_ok, key]
    simpa using fun h => absurd (hy.mpr h) (by simp)
  | true =>
    rw [Bool.not_true, if_neg (by simp)]
    refine (H.eq (H.weak ha.hn) (H.weak hq)).mono fun r hr => ?_
    rw [key, hr]; simp [hy.mp rfl]

theorem mod_sat (H : RatRef U O rep wrep ord) (hb : Rep rep b g) (hg : g ≠ 0) (a : PRat P) :
    (mod O a b).Sat U fun r => Rep rep r 0 := by
  unfold mod
  obtain ⟨n, d, hb', h1⟩ := id hb
  refine (sub_sat H hb' hb').bind fun z hz => ?_
  rw [sub_self] at hz
  refine (eq_sat H hb hz).bind fun c hc => ?_
  have : c = false := by rw [Bool.eq_false_iff]; exact fun h => hg (hc.mp h)
  rw [this, if_neg (by simp), Sat_ok]; exact hz

theorem mod_throw (H : RatRef U O rep wrep ord) (hb : Rep rep b 0) (a : PRat P) : (mod O a b).Throws U := by
  unfold mod
  obtain ⟨n, d, hb', h1⟩ := id hb
  refine (sub_sat H hb' hb').throws_bind fun z hz => ?_
  rw [sub_self] at hz
  refine (eq_sat H hb hz).throws_bind fun c hc => ?_
  rw [hc.mpr rfl, if_pos rfl]; exact Or.inl rfl

theorem Rep.mul_sat (H : RatRef U O rep wrep ord) (ha : Rep rep a f) (hb : Rep rep b g) :
    (mul O a b).Sat U fun r => Rep rep r (f * g) := by
  obtain ⟨n, d, ha, -⟩ := ha
  obtain ⟨n', d', hb, -⟩ := hb
  exact PRat.mul_sat H ha hb

theorem exp_sat (H : RatRef U O rep wrep ord) (ha : Rep rep a f) {e : Int} (he : -2147483647 ≤ e)
    (he' : e ≤ 2147483647) (h0 : 0 < e ∨ f ≠ 0) : (exp O a e).Sat U fun r => Rep rep r (f ^ e) := by
  unfold exp
  obtain ⟨n, d, hav, h1⟩ := id ha
  refine (H.psub 0 (by decide) hav.hn).bind fun z0 hz0 => (mk1_sat H hz0).bind fun zero hzero => ?_
  refine (H.psub 1 (by decide) hav.hn).bind fun o0 ho0 => (mk1_sat H ho0).bind fun one hone => ?_
  rw [Int.cast_zero, C_0, map_zero] at hzero
  rw [Int.cast_one, C_1, map_one] at hone
  split
  · rename_i h
    subst h
    refine (eq_sat H ha hzero).bind fun c hc => ?_
    have : c = false := by rw [Bool.eq_false_iff]; exact fun h => h0.resolve_left (by simp) (hc.mp h)
    rw [this, if_neg (by simp), Sat_ok, zpow_zero]; exact hone
  · rename_i hne
    split
    · rename_i hneg
      have hf : f ≠ 0 := h0.resolve_left (by omega)
      refine (eq_sat H ha hzero).bind fun c hc => ?_
      have : c = false := by rw [Bool.eq_false_iff]; exact fun h => hf (hc.mp h)
      rw [this, if_neg (by simp), ineg, chk_ok (by unfold InInt; omega), ok_bind, if_neg (by omega)]
      obtain ⟨n1, d1, hone', -⟩ := id hone
      refine (div_sat H hone' hav hf).bind fun xp hxp => ?_
      refine (sqMulLoop_sat (rep := Rep rep) (fun hx hy => Rep.mul_sat H hx hy) 32 one xp _ _ (-e).toNat (by omega) hone hxp).mono
        fun r hr => ?_
      convert hr using 1
      rw [one_mul, one_div, inv_pow, ← zpow_natCast, Int.toNat_of_nonneg (by omega), zpow_neg, inv_inv]
    · refine (sqMulLoop_sat (rep := Rep rep) (fun hx hy => Rep.mul_sat H hx hy) 32 one a _ _ e.toNat (by omega) hone ha).mono
        fun r hr => ?_
      convert hr using 1
      rw [one_mul, ← zpow_natCast, Int.toNat_of_nonneg (by omega)]

theorem exp_throw (H : RatRef U O rep wrep ord) (ha : Rep rep a 0) {e : Int} (he : e ≤ 0) : (exp O a e).Throws U := by
  unfold exp
  obtain ⟨n, d, hav, h1⟩ := id ha
  refine (H.psub 0 (by decide) hav.hn).throws_bind fun z0 hz0 => (mk1_sat H hz0).throws_bind fun zero hzero => ?_
  refine (H.psub 1 (by decide) hav.hn).throws_bind fun o0 ho0 => (mk1_sat H ho0).throws_bind fun one hone => ?_
  rw [Int.cast_zero, C_0, map_zero] at hzero
  split
  · refine (eq_sat H ha hzero).throws_bind fun c hc => ?_
    rw [hc.mpr rfl, if_pos rfl]; exact Or.inl rfl
  · rw [if_pos (by omega)]
    refine (eq_sat H ha hzero).throws_bind fun c hc => ?_
    rw [hc.mpr rfl, if_pos rfl]; exact Or.inl rfl

theorem exp_int_min (H : RatRef False O rep wrep ord) (ha : Rep rep a f) (hf : f ≠ 0) :
    exp O a (-2147483648) = ub := by
  unfold exp
  obtain ⟨n, d, hav, h1⟩ := id ha
  obtain ⟨z0, e0, hz0⟩ := sat_false.mp (H.psub 0 (by decide) hav.hn)
  obtain ⟨zero, e1, hzero⟩ := sat_false.mp (mk1_sat H hz0)
  obtain ⟨o0, e2, ho0⟩ := sat_false.mp (H.psub 1 (by decide) hav.hn)
  obtain ⟨one, e3, hone⟩ := sat_false.mp (mk1_sat H ho0)
  rw [Int.cast_zero, C_0, map_zero] at hzero
  obtain ⟨c, e4, hc⟩ := sat_false.mp (eq_sat H ha hzero)
  have : c = false := by rw [Bool.eq_false_iff]; exact fun h => hf (hc.mp h)
  rw [e0, ok_bind, e1, ok_bind, e2, ok_bind, e3, ok_bind, if_neg (by omega), if_pos (by omega), e4, ok_bind, this,
    if_neg (by simp), ineg, chk_ub (by unfold InInt; omega), ub_bind]

theorem cross_sat (H : RatRef U O rep wrep ord) {c : P → P → Res Bool} {R : K[X] → K[X] → Prop}
    (hc : ∀ {a b x y}, wrep a x → wrep b y → (c a b).Sat U fun r => r = true ↔ R x y)
    (ha : VRep rep a f n d) (hb : VRep rep b g n' d') :
    (cross O c a b).Sat U fun r => r = true ↔ R (n * d') (d * n') := by
  unfold cross
  exact (H.mul ha.hn hb.hd).bind fun x hx => (H.mul ha.hd hb.hn).bind fun y hy => hc hx hy

end
end PRat

/-! ### The polynomial classes -/

namespace F2P

def WR (a : F2P) (x : (ZMod 2)[X]) : Prop := Good a ∧ toPoly a = x

theorem gcdLoop_eq [DecidableEq (ZMod 2)[X]] : ∀ (n : ℕ) (c d : F2P), Canon c → Canon d → toPoly d ≠ 0 → (toPoly d).natDegree < n →
    (gcdLoop n c d).Ok (fun r => toPoly r = EuclideanDomain.gcd (toPoly d) (toPoly c) ∧ Canon r)
  | 0, _, _, _, _, _, h => by omega
  | n + 1, c, d, hc, hd, hdz, hn => by
    unfold gcdLoop
    refine (quot_and_rem_ok hc.good hd.ne_nil hdz).bind fun s ⟨h1, h2, h3, h4⟩ => ?_
    rw [eqZero_ok h4.ne_nil, ok_bind]
    have key : EuclideanDomain.gcd (toPoly d) (toPoly c) = EuclideanDomain.gcd (toPoly s.2) (toPoly d) := by
      rw [EuclideanDomain.gcd_val, ← h2]
    split
    · rename_i hz
      simp only [decide_eq_true_eq] at hz
      rw [Ok_ok, key, hz, EuclideanDomain.gcd_zero_left]
      exact ⟨rfl, hd⟩
    · rename_i hz
      simp only [decide_eq_true_eq] at hz
      have hlt : (toPoly s.2).degree < (toPoly d).degree := by rw [h2]; exact EuclideanDomain.mod_lt _ hdz
      have := natDegree_lt_natDegree hz hlt
      rw [key]
      exact gcdLoop_eq n d s.2 hd h4 hz (by omega)

theorem gcd_eq [DecidableEq (ZMod 2)[X]] {a b : F2P} (ha : Good a) (hb : Canon b) (hz : toPoly b ≠ 0) :
    (gcd a b).Ok (fun r => toPoly r = EuclideanDomain.gcd (toPoly b) (toPoly a) ∧ Canon r) := by
  unfold gcd
  rw [eqZero_ok ha.1, ok_bind]
  split
  · rename_i h
    simp only [decide_eq_true_eq] at h
    rw [Ok_ok, h, EuclideanDomain.gcd_zero_right]
    exact ⟨rfl, hb⟩
  · rename_i h
    simp only [decide_eq_true_eq] at h
    rw [eqZero_ok hb.ne_nil, ok_bind, if_neg (by simpa using hz)]
    refine gcdLoop_eq _ a b (ha.2 h) hb hz ?_
    have := hb
    unfold Canon at this
    omega

theorem ratRef [DecidableEq (ZMod 2)[X]] : RatRef False F2P.rops PRep WR (fun x y => nval x < nval y) where
  weak h := ⟨h.1.good, h.2⟩
  nz := by rintro a x ⟨h, rfl⟩ hx; exact ⟨h.2 hx, rfl⟩
  add := by
    rintro a b _ _ ⟨ha, rfl⟩ ⟨_, rfl⟩
    exact sat_false.mpr ((add_ok ha.1).mono fun r ⟨h1, h2⟩ => ⟨h2, h1⟩)
  sub := by
    rintro a b _ _ ⟨ha, rfl⟩ ⟨_, rfl⟩
    exact sat_false.mpr ((sub_ok ha.1).mono fun r ⟨h1, h2⟩ => ⟨h2, h1⟩)
  mul := by
    rintro a b _ _ ⟨ha, rfl⟩ ⟨_, rfl⟩
    exact sat_false.mpr ((mul_ok ha).mono fun r ⟨h1, h2⟩ => ⟨h2, h1⟩)
  div := by
    rintro a b y q ⟨ha, ha'⟩ ⟨hb, rfl⟩ hy
    refine sat_false.mpr ((div_ok ha hb.ne_nil hy).mono fun r ⟨h1, h2⟩ => ⟨h2, ?_⟩)
    rw [h1, ha', mul_div_cancel_left₀ _ hy]
  gcd := by
    rintro a b _ _ ⟨ha, rfl⟩ ⟨hb, rfl⟩
    by_cases hz : toPoly b = 0
    · have hg : ∃ r, gcd a b = ok r := by
        unfold gcd
        rw [eqZero_ok ha.1, ok_bind]
        split
        · exact ⟨_, rfl⟩
        · rw [eqZero_ok hb.ne_nil, ok_bind, if_pos (by simpa using hz)]; exact ⟨_, rfl⟩
      obtain ⟨r, hr⟩ := hg
      show (gcd a b).Sat False _
      rw [hr, Sat_ok]; exact Or.inr hz
    · exact sat_false.mpr ((gcd_eq ha hb hz).mono fun r ⟨h1, h2⟩ => Or.inl ⟨h2, h1⟩)
  eq := by
    rintro a b _ _ ⟨ha, rfl⟩ ⟨hb, rfl⟩
    show (F2P.eq a b).Sat False _
    rw [eq_ok ha.1 hb.1]; simp
  lt := by
    rintro a b _ _ ⟨ha, rfl⟩ ⟨hb, rfl⟩
    show (F2P.lt a b).Sat False _
    rw [lt_ok ha.1 hb.1]; simp
  gt := by
    rintro a b _ _ ⟨ha, rfl⟩ ⟨hb, rfl⟩
    show (F2P.gt a b).Sat False _
    unfold gt
    rw [cmp_ok ha.1 hb.1, ok_bind, Sat_ok]
    unfold dir; split_ifs <;> simp <;> omega
  le := by
    rintro a b _ _ ⟨ha, rfl⟩ ⟨hb, rfl⟩
    show (F2P.le a b).Sat False _
    unfold le
    rw [cmp_ok ha.1 hb.1, ok_bind, Sat_ok]
    unfold dir; split_ifs <;> simp <;> omega
  ge := by
    rintro a b _ _ ⟨ha, rfl⟩ ⟨hb, rfl⟩
    show (F2P.ge a b).Sat False _
    unfold ge
    rw [cmp_ok ha.1 hb.1, ok_bind, Sat_ok]
    unfold dir; split_ifs <;> simp <;> omega
  isZero := by
    rintro a _ ⟨ha, rfl⟩
    show (F2P.eqInt a 0).Sat False _
    rw [eqZero_ok ha.1]; simp
  psub := by
    intro a x v _ _
    show (ok (F2P.ofInt v) : Res F2P).Sat False _
    rw [Sat_ok]
    exact ⟨F2Mod.canon_ofInt v, toPoly_ofInt v⟩
  irrefl x := lt_irrefl _
  asymm x y h := by omega
  total x y := by
    rcases lt_trichotomy (nval x) (nval y) with h | h | h
    · exact Or.inr (Or.inl h)
    · exact Or.inl (nval_inj h)
    · exact Or.inr (Or.inr h)

end F2P

namespace CPoly
variable {U : Prop} {α K : Type} [Field K] [DecidableEq K[X]] {O : CoefOps α} {rep : α → K → Prop} {ord : K → K → Prop}

theorem gcdLoop_eq (H : CoefRef U O rep ord) : ∀ (n : ℕ) {c d : CPoly α} {f g : K[X]}, PRep rep c f → PRep rep d g →
    g ≠ 0 → g.natDegree < n → (gcdLoop O n c d).Sat U (fun r => PRep rep r (EuclideanDomain.gcd g f))
  | 0, _, _, _, _, _, _, _, h => by omega
  | n + 1, c, d, f, g, hc, hd, hg, hn => by
    unfold gcdLoop
    refine (quot_and_rem_sat H hc hd hg (unit_lead hg)).bind fun s ⟨q, r, hq, hr, e, hlt⟩ => ?_
    refine (eqInt_sat H hr).bind fun z hz => ?_
    have key : EuclideanDomain.gcd g f = EuclideanDomain.gcd r g := by
      rw [EuclideanDomain.gcd_val, (poly_div_mod_unique e hlt).2]
    cases z with
    | true =>
      rw [if_pos rfl, Sat_ok, key, hz.mp rfl, EuclideanDomain.gcd_zero_left]; exact hd
    | false =>
      rw [if_neg (by simp), key]
      have hr0 : r ≠ 0 := fun h => by simpa using hz.mpr h
      have := natDegree_lt_natDegree hr0 hlt
      exact gcdLoop_eq H n hd hr hr0 (by omega)

theorem gcd_eq (H : CoefRef U O rep ord) {a b : CPoly α} {f g : K[X]} (ha : PRep rep a f) (hb : PRep rep b g) :
    (gcd O a b).Sat U (fun r => PRep rep r (EuclideanDomain.gcd g f)) := by
  unfold gcd
  refine (eqInt_sat H ha).bind fun z hz => ?_
  cases z with
  | true =>
    rw [if_pos rfl, hz.mp rfl, EuclideanDomain.gcd_zero_right]
    exact (copy_sat hb).mono fun r hr => hr.1
  | false =>
    rw [if_neg (by simp)]
    refine (eqInt_sat H hb).bind fun z hz => ?_
    cases z with
    | true =>
      rw [if_pos rfl, hz.mp rfl, EuclideanDomain.gcd_zero_left]
      exact (copy_sat ha).mono fun r hr => hr.1
    | false =>
      rw [if_neg (by simp)]
      exact gcdLoop_eq H _ ha hb (fun h => by simpa using hz.mpr h) (by rw [hb.deg]; omega)

theorem ratRef (H : CoefRef U O rep ord) : RatRef U (CPoly.rops O) (PRep rep) (PRep rep) (polyLt ord) where
  weak h := h
  nz h _ := h
  add h h' := add_sat H h h'
  sub h h' := sub_sat H h h'
  mul h h' := mul_sat H h h'
  div := by
    intro a b y q ha hb hy
    refine (quot_and_rem_sat H ha hb hy (unit_lead hy)).bind fun s ⟨q', r, h1, h2, h3, h4⟩ => ?_
    rw [Sat_ok]
    have := (poly_div_mod_unique h3 h4).1
    rw [mul_div_cancel_left₀ _ hy] at this
    rw [this]; exact h1
  gcd h h' := (gcd_eq H h h').mono fun _ hr => Or.inl hr
  eq h h' := eq_sat H h h'
  lt h h' := lt_sat H h h'
  gt h h' := gt_sat H h h'
  le := by
    intro a b x y ha hb
    show (CPoly.le O a b).Sat U _
    unfold le
    refine (cmp_sat H ha hb).bind fun d hd => ?_
    rw [Sat_ok, decide_eq_true_iff]
    rcases hd with ⟨h1, h2⟩ | ⟨h1, h2⟩ | ⟨h1, h2⟩
    · rw [h1, h2]; simpa using polyLt_irrefl H y
    · rw [h1]; simpa using polyLt_asymm H h2
    · rw [h1]; simpa using h2
  ge := by
    intro a b x y ha hb
    show (CPoly.ge O a b).Sat U _
    unfold ge
    refine (cmp_sat H ha hb).bind fun d hd => ?_
    rw [Sat_ok, decide_eq_true_iff]
    rcases hd with ⟨h1, h2⟩ | ⟨h1, h2⟩ | ⟨h1, h2⟩
    · rw [h1, h2]; simpa using polyLt_irrefl H y
    · rw [h1]; simpa using h2
    · rw [h1]; simpa using polyLt_asymm H h2
  isZero h := eqInt_sat H h
  psub v hv h := psub_sat H h hv
  irrefl := polyLt_irrefl H
  asymm _ _ := polyLt_asymm H
  total := polyLt_total H

end CPoly
end Spffl
