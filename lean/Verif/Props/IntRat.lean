/-
Property C17: rational arithmetic.
-/
import Verif.Proof.IntRat

namespace Spffl.Props
open Res
namespace Rat17
open IntRat

/-- The rational number an object stands for. -/
def value (a : IntRat) : ℚ := (a.numer : ℚ) / a.denom

/-- Lowest terms, positive denominator, both parts `int`s, numerator not `INT_MIN`. -/
def Wf (a : IntRat) : Prop :=
  0 < a.denom ∧ InInt a.denom ∧ InInt a.numer ∧ a.numer ≠ INT_MIN ∧ Int.gcd a.numer a.denom = 1

theorem Wf.rep {a : IntRat} (h : Wf a) : Rep a (value a) := ⟨h.1, h.2.1, h.2.2.1, h.2.2.2.1, h.2.2.2.2, rfl⟩
theorem rep_wf {a : IntRat} {q : ℚ} (h : Rep a q) : Wf a ∧ value a = q :=
  ⟨⟨h.pos, h.inD, h.inN, h.ne, h.cop⟩, h.val⟩

/-- C17: construction from any numerator and denominator.  The result is well formed and has the right value;
a zero denominator throws; exactly the pairs with an `INT_MIN` part (and non-zero denominator) are undefined. -/
theorem C17_construct (n d : Int) (hn : InInt n) (hd : InInt d) :
    (d = 0 → IntRat.mk' n d = throw) ∧
    (d ≠ 0 → (n = INT_MIN ∨ d = INT_MIN) → IntRat.mk' n d = ub) ∧
    (d ≠ 0 → n ≠ INT_MIN → d ≠ INT_MIN → (IntRat.mk' n d).Ok (fun r => Wf r ∧ value r = (n : ℚ) / d)) := by
  refine ⟨?_, fun h0 h => simplify_ub hn h0 h, fun h0 h1 h2 => (simplify_ok hn hd h1 h2 h0).mono fun r => rep_wf⟩
  rintro rfl; exact simplify_throw n

example : IntRat.mk' 6 (-4) = ok ⟨-3, 2⟩ := by decide

/-- C17: a well-formed object is determined by its value. -/
theorem C17_unique {a b : IntRat} (ha : Wf a) (hb : Wf b) : value a = value b ↔ a = b :=
  ⟨fun h => Rep.inj ha.rep (h ▸ hb.rep), fun h => by rw [h]⟩

example : Wf ⟨-3, 2⟩ := by unfold Wf; decide

/-- C17: the four operations are exact whenever the integers computed on the way are representable (and no
part to be simplified is `INT_MIN`). -/
theorem C17_exact {a b : IntRat} (ha : Wf a) (hb : Wf b) :
    (InInt (a.numer * b.denom) → InInt (a.denom * b.numer) → InInt (a.numer * b.denom + a.denom * b.numer) →
      InInt (a.denom * b.denom) → a.numer * b.denom + a.denom * b.numer ≠ INT_MIN →
      (IntRat.add a b).Ok (fun r => Wf r ∧ value r = value a + value b)) ∧
    (InInt (a.numer * b.denom) → InInt (a.denom * b.numer) → InInt (a.numer * b.denom - a.denom * b.numer) →
      InInt (a.denom * b.denom) → a.numer * b.denom - a.denom * b.numer ≠ INT_MIN →
      (IntRat.sub a b).Ok (fun r => Wf r ∧ value r = value a - value b)) ∧
    (InInt (a.numer * b.numer) → InInt (a.denom * b.denom) → a.numer * b.numer ≠ INT_MIN →
      (IntRat.mul a b).Ok (fun r => Wf r ∧ value r = value a * value b)) ∧
    (InInt (a.numer * b.denom) → InInt (a.denom * b.numer) → a.numer * b.denom ≠ INT_MIN →
      a.denom * b.numer ≠ INT_MIN →
      if value b = 0 then IntRat.div a b = throw
      else (IntRat.div a b).Ok (fun r => Wf r ∧ value r = value a / value b)) ∧
    (IntRat.neg a).Ok (fun r => Wf r ∧ value r = - value a) := by
  have ra := ha.rep; have rb := hb.rep
  have hdd : a.denom * b.denom ≠ INT_MIN := by
    have := mul_pos ha.1 hb.1; unfold INT_MIN; omega
  refine ⟨fun h1 h2 h3 h4 h5 => ?_, fun h1 h2 h3 h4 h5 => ?_, fun h1 h2 h3 => ?_, fun h1 h2 h3 h4 => ?_,
    (neg_ok ra).mono fun r => rep_wf⟩
  · unfold IntRat.add imul iadd
    rw [chk_ok h1, ok_bind, chk_ok h2, ok_bind, chk_ok h3, ok_bind, chk_ok h4, ok_bind]
    rw [← add_val ra rb]
    exact (simplify_ok h3 h4 h5 hdd (dd_ne ra rb)).mono fun r => rep_wf
  · unfold IntRat.sub imul isub
    rw [chk_ok h1, ok_bind, chk_ok h2, ok_bind, chk_ok h3, ok_bind, chk_ok h4, ok_bind]
    rw [← sub_val ra rb]
    exact (simplify_ok h3 h4 h5 hdd (dd_ne ra rb)).mono fun r => rep_wf
  · unfold IntRat.mul imul
    rw [chk_ok h1, ok_bind, chk_ok h2, ok_bind]
    rw [← mul_val ra rb]
    exact (simplify_ok h1 h2 h3 hdd (dd_ne ra rb)).mono fun r => rep_wf
  · unfold IntRat.div imul
    rw [chk_ok h1, ok_bind, chk_ok h2, ok_bind]
    split
    · rename_i h0
      have : b.numer = 0 := by by_contra hc; exact (num_ne rb).mp hc h0
      rw [this, mul_zero]; exact simplify_throw _
    · rename_i h0
      rw [← div_val ra rb]
      exact (simplify_ok h1 h2 h3 h4 (mul_ne_zero ha.1.ne' ((num_ne rb).mpr h0))).mono fun r => rep_wf

example : IntRat.add ⟨1, 6⟩ ⟨1, 10⟩ = ok ⟨4, 15⟩ ∧ IntRat.div ⟨-1, 6⟩ ⟨-2, 3⟩ = ok ⟨1, 4⟩ ∧
    IntRat.div ⟨1, 6⟩ ⟨0, 1⟩ = throw := by decide

/-- C17: without any assumption on overflow, whatever is returned is exact; exceptions come only from division
by zero. -/
theorem C17_never_wrong {a b : IntRat} (ha : Wf a) (hb : Wf b) :
    (∀ r, IntRat.add a b = ok r → Wf r ∧ value r = value a + value b) ∧
    (∀ r, IntRat.sub a b = ok r → Wf r ∧ value r = value a - value b) ∧
    (∀ r, IntRat.mul a b = ok r → Wf r ∧ value r = value a * value b) ∧
    (∀ r, IntRat.div a b = ok r → Wf r ∧ value b ≠ 0 ∧ value r = value a / value b) ∧
    IntRat.add a b ≠ throw ∧ IntRat.sub a b ≠ throw ∧ IntRat.mul a b ≠ throw ∧
    (IntRat.div a b = throw → value b = 0) := by
  have ra := ha.rep; have rb := hb.rep
  have get : ∀ {t : Res IntRat} {q : ℚ}, t.Sat True (fun r => Rep r q) → ∀ r, t = ok r → Wf r ∧ value r = q := by
    rintro t q h r rfl; exact rep_wf h
  have nt : ∀ {t : Res IntRat} {q : ℚ}, t.Sat True (fun r => Rep r q) → t ≠ throw := by
    rintro t q h rfl; exact h
  refine ⟨get (add_sat ra rb), get (sub_sat ra rb), get (mul_sat ra rb), fun r hr => ?_, nt (add_sat ra rb),
    nt (sub_sat ra rb), nt (mul_sat ra rb), fun h => ?_⟩
  · by_cases h0 : value b = 0
    · rw [h0] at rb
      rcases div_zero_throw (a := a) rb with h | ⟨_, h⟩ <;> rw [h] at hr <;> cases hr
    · exact ⟨(get (div_sat ra rb h0) r hr).1, h0, (get (div_sat ra rb h0) r hr).2⟩
  · by_contra h0
    exact nt (div_sat ra rb h0) h

example : IntRat.mul ⟨2147483647, 2⟩ ⟨3, 1⟩ = ub := by decide

/-- C17 fails as stated: the cross products of -2^30 and -2^30 are representable, as is their sum -2^31, yet
simplification of that sum is undefined. -/
theorem C17_violated_int_min : ∃ a b, Wf a ∧ Wf b ∧ InInt (a.numer * b.denom) ∧ InInt (a.denom * b.numer) ∧
    InInt (a.numer * b.denom + a.denom * b.numer) ∧ InInt (a.denom * b.denom) ∧ IntRat.add a b = ub :=
  ⟨⟨-1073741824, 1⟩, ⟨-1073741824, 1⟩, by unfold Wf; decide, by unfold Wf; decide, by decide, by decide, by decide,
    by decide, by decide⟩

/-- C17: comparison of well-formed objects.  Equality is exact; the order comparisons are exact whenever the
cross products are representable, and otherwise undefined. -/
theorem C17_compare {a b : IntRat} (ha : Wf a) (hb : Wf b) :
    IntRat.eq a b = ok (decide (value a = value b)) ∧
    (∀ v : Int, IntRat.eqInt a v = ok (decide (value a = v))) ∧
    (InInt (a.numer * b.denom) → InInt (a.denom * b.numer) →
      IntRat.lt a b = ok (decide (value a < value b)) ∧ IntRat.le a b = ok (decide (value a ≤ value b)) ∧
      IntRat.gt a b = ok (decide (value b < value a)) ∧ IntRat.ge a b = ok (decide (value b ≤ value a))) := by
  have ra := ha.rep; have rb := hb.rep
  refine ⟨eq_ok ra rb, eqInt_ok ra, fun h1 h2 => ?_⟩
  have hc : cross a b = ok (a.numer * b.denom, a.denom * b.numer) := by
    unfold cross imul; rw [chk_ok h1, ok_bind, chk_ok h2, ok_bind]
  have hs := cross_sat ra rb
  rw [hc, Sat_ok] at hs
  obtain ⟨⟨e1, e2⟩, e3⟩ := hs
  have l1 := lt_iff e1 e2 e3
  have l2 := lt_iff e2 e1 e3
  unfold IntRat.lt IntRat.le IntRat.gt IntRat.ge
  rw [hc]
  simp only [ok_bind, Res.ok.injEq, decide_eq_decide]
  exact ⟨l1, by rw [← not_lt, ← not_lt, l2], l2, by rw [← not_lt, ← not_lt, l1]⟩

example : IntRat.lt ⟨-1, 3⟩ ⟨-1, 4⟩ = ok true := by decide

/-- C17: powers.  Whatever `exp` returns is the power, for every exponent. -/
theorem C17_exp {a r : IntRat} (ha : Wf a) {e : Int} (he : InInt e) (h : IntRat.exp a e = ok r) :
    Wf r ∧ value r = value a ^ e := by
  have ra := ha.rep
  have key : (IntRat.exp a e).Sat True (fun r => Rep r (value a ^ e)) ∨ IntRat.exp a e = throw ∨
      IntRat.exp a e = ub := by
    unfold IntRat.exp
    obtain ⟨z, hz, rz⟩ := ofInt_ok (n := 0) (by decide) (by decide)
    obtain ⟨o, ho, ro⟩ := ofInt_ok (n := 1) (by decide) (by decide)
    rw [hz, ok_bind, ho, ok_bind]
    have hpow : ∀ {b : IntRat} {y : ℚ} {n : ℕ}, n < 2 ^ 32 → Rep b y →
        (sqMulLoop IntRat.mul 32 o b n).Sat True (fun r => Rep r (y ^ n)) := by
      intro b y n hn hb
      refine (sqMulLoop_sat (rep := Rep) (fun h1 h2 => mul_sat h1 h2) 32 o b y _ n hn ro hb).mono fun r hr => ?_
      simpa using hr
    unfold InInt at he
    rw [eq_ok ra rz]
    by_cases h0 : e = 0
    · rw [if_pos h0, ok_bind]
      split
      · exact Or.inr (Or.inl rfl)
      · subst h0; left; simpa using ro
    · rw [if_neg h0]
      by_cases hneg : e < 0
      · rw [if_pos hneg, ok_bind]
        split
        · exact Or.inr (Or.inl rfl)
        · rename_i hz0
          simp only [Int.cast_zero, decide_eq_true_eq] at hz0
          by_cases hm : e = INT_MIN
          · right; right; subst hm; rfl
          · unfold INT_MIN at hm
            unfold ineg
            rw [chk_ok (by unfold InInt; omega), ok_bind, if_neg (by omega)]
            left
            refine (div_sat ro ra hz0).bind fun xp hxp => ?_
            refine (hpow (by omega) hxp).mono fun r hr => ?_
            have e1 : ((1 : Int) / value a) ^ (-e).toNat = value a ^ e := by
              rw [Int.cast_one, one_div, inv_pow, ← zpow_natCast, Int.toNat_of_nonneg (by omega), ← zpow_neg, neg_neg]
            rwa [e1] at hr
      · rw [if_neg hneg]
        left
        refine (hpow (by omega) ra).mono fun r hr => ?_
        rwa [← zpow_natCast, Int.toNat_of_nonneg (by omega)] at hr
  rw [h] at key
  rcases key with h | h | h
  · exact rep_wf h
  · cases h
  · cases h

example : IntRat.exp ⟨-2, 3⟩ (-3) = ok ⟨-27, 8⟩ := by decide

end Rat17
end Spffl.Props
