/-
Proofs about the model of q_cyclotomic: the divisions, with and without the possibility of `int` overflow.
-/
import Verif.Proof.Cyclo
import Mathlib.Topology.Algebra.Polynomial
import Mathlib.RingTheory.Polynomial.Cyclotomic.Roots
import Mathlib.Analysis.Complex.Polynomial.Basic

namespace Spffl
open Res
open Polynomial
open CPoly

namespace Cyclo

theorem exact_div {R : Type} [CommRing R] {f g p q r : R[X]} (hg : g.Monic) (hp : f = p * g)
    (hq : f = q * g + r) (hr : r.degree < g.degree) : q = p ∧ r = 0 := by
  nontriviality R
  have h1 := div_modByMonic_unique (f := f) q r hg ⟨by rw [hq]; ring, hr⟩
  have h2 := div_modByMonic_unique (f := f) p 0 hg ⟨by rw [hp]; ring, by
    rw [degree_zero, bot_lt_iff_ne_bot, Ne, degree_eq_bot]; exact hg.ne_zero⟩
  exact ⟨h1.1.symm.trans h2.1, h1.2.symm.trans h2.2⟩

/-! ### Rationals, with overflow allowed -/

theorem rep_int {k : Int} (h : InInt k) (hm : k ≠ INT_MIN) : IntRat.Rep ⟨k, 1⟩ (k : ℚ) :=
  ⟨by simp, by unfold InInt; norm_num, h, hm, by simp, by simp⟩

theorem divs_rat (n : ℕ) : Divs True IntRat.Rep n := by
  intro m d _ hdm hlt a b ha hb
  refine (quot_and_rem_sat IntRat.cops_ref ha hb (cyclotomic_ne_zero d ℚ) ?_).mono ?_
  · rw [(cyclotomic.monic d ℚ).leadingCoeff]; exact isUnit_one
  · rintro s ⟨q, r, hq, hr, hf, hlt'⟩
    obtain ⟨rfl, rfl⟩ := exact_div (cyclotomic.monic d ℚ) (P_dvd (by omega) hdm) hf hlt'
    exact ⟨hq, hr⟩

/-! ### Integers, without overflow -/

/-- `a` is the integer `x`, and `x` is a value of `intrat_t` -/
def ZRep (a : IntRat) (x : ℤ) : Prop := a = ⟨x, 1⟩ ∧ |x| ≤ 2147483647

theorem simplify_int {n : Int} (h : |n| ≤ 2147483647) : IntRat.simplify ⟨n, 1⟩ = ok ⟨n, 1⟩ := by
  rw [abs_le] at h
  obtain ⟨r, hr, hrep⟩ := IntRat.simplify_ok (n := n) (d := 1) (by unfold InInt; omega) (by decide)
    (by unfold INT_MIN; omega) (by decide) (by decide)
  rw [hr]
  have := hrep.num_eq
  simp at this
  cases r; simp_all

theorem z_sub {a b : IntRat} {x y : ℤ} (ha : ZRep a x) (hb : ZRep b y) (h : |x - y| ≤ 2147483647) :
    (IntRat.sub a b).Sat False (fun r => ZRep r (x - y)) := by
  obtain ⟨rfl, h1⟩ := ha
  obtain ⟨rfl, h2⟩ := hb
  have h' := h
  rw [abs_le] at h1 h2 h'
  unfold IntRat.sub imul isub
  simp only [mul_one, one_mul]
  rw [chk_ok (by unfold InInt; omega), ok_bind, chk_ok (by unfold InInt; omega), ok_bind,
    chk_ok (by unfold InInt; omega), ok_bind, chk_ok (by decide), ok_bind, simplify_int h]
  exact ⟨rfl, h⟩

theorem z_mul {a b : IntRat} {x y : ℤ} (ha : ZRep a x) (hb : ZRep b y) (h : |x * y| ≤ 2147483647) :
    (IntRat.mul a b).Sat False (fun r => ZRep r (x * y)) := by
  obtain ⟨rfl, h1⟩ := ha
  obtain ⟨rfl, h2⟩ := hb
  have h' := h
  rw [abs_le] at h'
  unfold IntRat.mul imul
  simp only [mul_one]
  rw [chk_ok (by unfold InInt; omega), ok_bind, chk_ok (by decide), ok_bind, simplify_int h]
  exact ⟨rfl, h⟩

theorem z_cross {a b : IntRat} {x y : ℤ} (ha : ZRep a x) (hb : ZRep b y) : IntRat.cross a b = ok (x, y) := by
  obtain ⟨rfl, h1⟩ := ha
  obtain ⟨rfl, h2⟩ := hb
  rw [abs_le] at h1 h2
  unfold IntRat.cross imul
  simp only [mul_one, one_mul]
  rw [chk_ok (by unfold InInt; omega), ok_bind, chk_ok (by unfold InInt; omega), ok_bind]

theorem z_zero : ZRep ⟨0, 1⟩ 0 := ⟨rfl, by norm_num⟩

theorem z_cmp : CoefCmp False IntRat.cops ZRep (fun x y : ℤ => x < y) where
  sub0 h := by
    have := z_sub h h (by rw [sub_self]; norm_num)
    rw [sub_self] at this; exact this
  eq := by
    rintro a b x y ⟨rfl, _⟩ ⟨rfl, _⟩
    show (IntRat.eq _ _).Sat _ _
    unfold IntRat.eq
    by_cases e : x = y <;> simp [e]
  lt := by
    intro a b x y ha hb
    show (IntRat.lt _ _).Sat _ _
    unfold IntRat.lt; rw [z_cross ha hb]; simp
  gt := by
    intro a b x y ha hb
    show (IntRat.gt _ _).Sat _ _
    unfold IntRat.gt; rw [z_cross ha hb]; simp
  psub0 _ := by
    show (IntRat.ofInt 0).Sat _ _
    unfold IntRat.ofInt; rw [simplify_int (by norm_num)]; exact z_zero
  irrefl x := lt_irrefl x
  asymm x y := lt_asymm
  total x y := by
    rcases lt_trichotomy x y with h | h | h
    · exact Or.inr (Or.inl h)
    · exact Or.inl h
    · exact Or.inr (Or.inr h)

/-- bound on the coefficients of a product, from bounds on the coefficients of the factors -/
theorem coeff_mul_le {Q g q' g' : ℤ[X]} (hQ : ∀ j, |Q.coeff j| ≤ q'.coeff j) (hg : ∀ j, |g.coeff j| ≤ g'.coeff j) (i : ℕ) :
    |(Q * g).coeff i| ≤ (q' * g').coeff i := by
  rw [coeff_mul, coeff_mul]
  refine (Finset.abs_sum_le_sum_abs _ _).trans (Finset.sum_le_sum fun x _ => ?_)
  rw [abs_mul]
  exact mul_le_mul (hQ _) (hg _) (abs_nonneg _) ((abs_nonneg _).trans (hQ _))

/-- one term of a product with non-negative coefficients -/
theorem term_le {q' g' : ℤ[X]} (hq : ∀ j, 0 ≤ q'.coeff j) (hg : ∀ j, 0 ≤ g'.coeff j) (i j : ℕ) :
    q'.coeff i * g'.coeff j ≤ (q' * g').coeff (i + j) := by
  rw [coeff_mul]
  exact Finset.single_le_sum (f := fun x : ℕ × ℕ => q'.coeff x.1 * g'.coeff x.2)
    (fun x _ => mul_nonneg (hq _) (hg _)) (a := (i, j)) (by simp)

/-- Exact division of integer polynomials does not overflow if the schoolbook products cannot. -/
theorem quot_int {f g q q' g' : ℤ[X]} (hg : g.Monic) (hfq : f = q * g) (hQ : ∀ j, |q.coeff j| ≤ q'.coeff j)
    (hG : ∀ j, |g.coeff j| ≤ g'.coeff j) (hB : ∀ i, |f.coeff i| + (q' * g').coeff i ≤ 2147483647)
    {a b : QPoly} (ha : PRep ZRep a f) (hb : PRep ZRep b g) :
    (quot_and_rem IntRat.cops a b).Sat False (fun s => PRep ZRep s.1 q ∧ PRep ZRep s.2 0) := by
  have hlc : g.leadingCoeff = 1 := hg.leadingCoeff
  have hgb : g.coeff b.degree = 1 := by rw [← hb.deg]; exact hg
  refine (quot_and_rem_cmp z_cmp ha hb hg.ne_zero (by rw [hlc]; exact isUnit_one) ?_ ?_).mono ?_
  · rintro l ⟨rfl, _⟩
    rw [hlc]
    have : IntRat.cops.recip ⟨1, 1⟩ = ok (some ⟨1, 1⟩) := by decide +kernel
    rw [this]
    exact ⟨1, ⟨rfl, by norm_num⟩, by norm_num⟩
  · intro dlinv u hu hgu k hk Q F hf hQ0 hF0
    rw [hlc, one_mul] at hgu
    subst hgu
    -- the quotient so far agrees with the exact one
    have hFe : (q - Q) * g = F := by rw [sub_mul, ← hfq, hf]; ring
    have hdeg : ∀ i, k + 1 ≤ i → (q - Q).coeff i = 0 := by
      by_contra hc
      push Not at hc
      obtain ⟨i, hi, hne⟩ := hc
      have h1 : i ≤ (q - Q).natDegree := le_natDegree_of_ne_zero hne
      have h2 : (q - Q) ≠ 0 := by intro h; rw [h] at hne; simp at hne
      have h3 : F.natDegree = (q - Q).natDegree + b.degree := by
        rw [← hFe, ← hb.deg, natDegree_mul h2 hg.ne_zero]
      have h4 : F.coeff F.natDegree = 0 := hF0 _ (by omega)
      have h5 : F = 0 := leadingCoeff_eq_zero.mp h4
      rw [h5] at hFe
      exact (mul_ne_zero h2 hg.ne_zero) hFe
    have hQk : ∀ j, |Q.coeff j| ≤ q'.coeff j := by
      intro j
      rcases Nat.lt_or_ge j (k + 1) with h | h
      · rw [hQ0 j (Or.inl h), abs_zero]; exact (abs_nonneg _).trans (hQ j)
      · have := hdeg j h
        rw [coeff_sub, sub_eq_zero] at this
        rw [← this]; exact hQ j
    have htop : F.coeff (k + b.degree) = q.coeff k := by
      have hd : (q - Q).natDegree ≤ k := by
        rw [natDegree_le_iff_coeff_eq_zero]; exact fun i hi => hdeg i hi
      rw [← hFe, coeff_mul_add_eq_of_natDegree_le hd hb.deg.le, hgb, mul_one, coeff_sub,
        hQ0 k (Or.inl (Nat.lt_succ_self k)), sub_zero]
    have hq0 : ∀ j, 0 ≤ q'.coeff j := fun j => (abs_nonneg _).trans (hQ j)
    have hg0 : ∀ j, 0 ≤ g'.coeff j := fun j => (abs_nonneg _).trans (hG j)
    have hscale : ∀ i, |g.coeff i * (F.coeff (k + b.degree) * 1)| ≤ (q' * g').coeff (k + i) := by
      intro i
      rw [mul_one, htop, mul_comm, abs_mul]
      exact (mul_le_mul (hQ k) (hG i) (abs_nonneg _) (hq0 k)).trans (term_le hq0 hg0 k i)
    have hle : ∀ i, (q' * g').coeff i ≤ 2147483647 := fun i => by
      have := hB i; have := abs_nonneg (f.coeff i); omega
    refine ⟨fun x hx => ?_, fun m hm i _ y hy => ?_, fun i hi x y hx hy => ?_⟩
    · exact z_mul hx hu (by rw [mul_one]; exact hx.2)
    · exact z_mul hy hm ((hscale i).trans (hle _))
    · refine z_sub hx hy ?_
      -- the new remainder is `f - (Q + c X^k) g`
      have e : F.coeff (k + i) - g.coeff i * (F.coeff (k + b.degree) * 1)
          = f.coeff (k + i) - ((Q + C (q.coeff k) * X ^ k) * g).coeff (k + i) := by
        rw [mul_one, htop, add_mul, coeff_add, hf, coeff_add, mul_assoc, coeff_C_mul, coeff_X_pow_mul',
          if_pos (by omega), show k + i - k = i by omega]
        ring
      rw [e]
      have hnew : ∀ j, |(Q + C (q.coeff k) * X ^ k).coeff j| ≤ q'.coeff j := by
        intro j
        rw [coeff_add, coeff_C_mul, coeff_X_pow]
        by_cases h : j = k
        · subst h; rw [hQ0 j (Or.inl (Nat.lt_succ_self j)), if_pos rfl]; simpa using hQ j
        · rw [if_neg h, mul_zero, add_zero]; exact hQk j
      have h1 := coeff_mul_le hnew hG (k + i)
      have h2 := hB (k + i)
      have h3 := abs_sub (f.coeff (k + i)) (((Q + C (q.coeff k) * X ^ k) * g).coeff (k + i))
      omega
  · rintro s ⟨q1, r, hq, hr, hf, hlt⟩
    obtain ⟨rfl, rfl⟩ := exact_div hg hfq hf hlt
    exact ⟨hq, hr⟩

/-- a condition under which no division for `n` overflows -/
def Tame (n : ℕ) : Prop := ∀ m d, m ∣ n → d ∣ m → d < m → ∃ q' g' : ℤ[X],
  (∀ j, |(P ℤ m (d + 1)).coeff j| ≤ q'.coeff j) ∧ (∀ j, |(cyclotomic d ℤ).coeff j| ≤ g'.coeff j) ∧
  ∀ i, |(P ℤ m d).coeff i| + (q' * g').coeff i ≤ 2147483647

theorem divs_int {n : ℕ} (h : Tame n) : Divs False ZRep n := by
  intro m d hmn hdm hlt a b ha hb
  obtain ⟨q', g', h1, h2, h3⟩ := h m d hmn hdm hlt
  exact quot_int (cyclotomic.monic d ℤ) (P_dvd (by omega) hdm) h1 h2 h3 ha hb

/-! ### Small `n` -/

theorem P_dvd_X_pow {m d : ℕ} (hm : 0 < m) : P ℂ m d ∣ X ^ m - 1 := by
  rw [← prod_cyclotomic_eq_X_pow_sub_one hm]
  exact Finset.prod_dvd_prod_of_subset _ _ _ (Finset.filter_subset _ _)

theorem map_P (m d : ℕ) : (P ℤ m d).map (Int.castRingHom ℂ) = P ℂ m d := by
  unfold P; rw [Polynomial.map_prod]; simp

theorem natDegree_P_le {m d : ℕ} (hm : 0 < m) : (P ℤ m d).natDegree ≤ m := by
  have h1 : (P ℂ m d).natDegree ≤ (X ^ m - 1 : ℂ[X]).natDegree :=
    natDegree_le_of_dvd (P_dvd_X_pow hm) (X_pow_sub_C_ne_zero hm 1)
  rw [← map_P, P_monic.natDegree_map] at h1
  rwa [show (X ^ m - 1 : ℂ[X]) = X ^ m - C 1 by simp, natDegree_X_pow_sub_C] at h1

/-- a monic divisor of `X^m - 1` has coefficients bounded by binomial coefficients -/
theorem coeff_le_choose {p : ℤ[X]} (hp : p.Monic) {m : ℕ} (hm : 0 < m)
    (hd : p.map (Int.castRingHom ℂ) ∣ X ^ m - 1) (i : ℕ) : |p.coeff i| ≤ p.natDegree.choose i := by
  have hmap := hp.map (Int.castRingHom ℂ)
  have h := coeff_le_of_roots_le (p := p.map (Int.castRingHom ℂ)) (f := RingHom.id ℂ) (B := 1) i hmap
    (by rw [Polynomial.map_id]; exact IsAlgClosed.splits _) (fun z hz => by
      rw [Polynomial.map_id, mem_roots hmap.ne_zero, IsRoot.def] at hz
      have h1 := eval_dvd (x := z) hd
      rw [hz, zero_dvd_iff] at h1
      have h2 : z ^ m = 1 := by simpa [sub_eq_zero] using h1
      exact (Complex.norm_eq_one_of_pow_eq_one h2 (by omega)).le)
  rw [Polynomial.map_id, one_pow, one_mul, coeff_map, hp.natDegree_map, eq_intCast, Complex.norm_intCast] at h
  exact_mod_cast h

theorem tame_small {n : ℕ} (hn0 : 0 < n) (hn : n ≤ 33) : Tame n := by
  intro m d hmn hdm hlt
  have hm : 0 < m := by omega
  have hm33 : m ≤ 33 := (Nat.le_of_dvd hn0 hmn).trans hn
  refine ⟨(1 + X) ^ (P ℤ m (d + 1)).natDegree, (1 + X) ^ (cyclotomic d ℤ).natDegree, fun j => ?_, fun j => ?_, fun i => ?_⟩
  · rw [coeff_one_add_X_pow]
    have := coeff_le_choose P_monic hm (by rw [map_P]; exact P_dvd_X_pow hm) j (p := P ℤ m (d + 1))
    exact_mod_cast this
  · rw [coeff_one_add_X_pow]
    have := coeff_le_choose (cyclotomic.monic d ℤ) hm (by
      rw [map_cyclotomic, ← prod_cyclotomic_eq_X_pow_sub_one hm]
      exact Finset.dvd_prod_of_mem _ (Nat.mem_divisors.mpr ⟨hdm, by omega⟩)) j
    exact_mod_cast this
  · have hdeg : (P ℤ m (d + 1)).natDegree + (cyclotomic d ℤ).natDegree = (P ℤ m d).natDegree := by
      rw [P_dvd hm hdm, P_monic.natDegree_mul (cyclotomic.monic d ℤ)]
    rw [← pow_add, hdeg, coeff_one_add_X_pow]
    have hle := natDegree_P_le (d := d) hm
    have hd0 : 0 < d := Nat.pos_of_dvd_of_pos hdm hm
    have hc : |(P ℤ m d).coeff i| ≤ ((P ℤ m d).natDegree.choose i : ℕ) :=
      coeff_le_choose P_monic hm (by rw [map_P]; exact P_dvd_X_pow hm) i
    have h16 : ∀ k, k ≤ 33 → k.choose i ≤ k.choose (k / 2) := fun k _ => Nat.choose_le_middle i k
    have hmid : ∀ k, k ≤ 33 → (k ≤ 32 ∧ k.choose (k / 2) ≤ 601080390) ∨ (k = 33 ∧ k.choose (k / 2) ≤ 1166803110) := by
      decide +kernel
    have hb := hmid _ (hle.trans hm33)
    have hmm := h16 _ (hle.trans hm33)
    rcases hb with ⟨_, h⟩ | ⟨h33, h⟩
    · zify at h hmm; omega
    · -- only `X^33 - 1` itself has degree 33
      have hd1 : d = 1 := by
        by_contra hne
        have hsub : (P ℤ m 1).natDegree = m := by
          rw [P_one hm, show (X ^ m - 1 : ℤ[X]) = X ^ m - C 1 by simp, natDegree_X_pow_sub_C]
        have h2 : (P ℤ m 1).natDegree = (P ℤ m 2).natDegree + 1 := by
          rw [P_dvd hm (one_dvd m), P_monic.natDegree_mul (cyclotomic.monic 1 ℤ), natDegree_cyclotomic]; simp
        have h3 : (P ℤ m d).natDegree ≤ (P ℤ m 2).natDegree := by
          apply natDegree_le_of_dvd _ P_monic.ne_zero
          unfold P
          apply Finset.prod_dvd_prod_of_subset
          intro j hj
          simp only [Finset.mem_filter] at hj ⊢
          exact ⟨hj.1, by omega⟩
        omega
      subst hd1
      have h1 : |(P ℤ m 1).coeff i| ≤ 1 := by
        rw [P_one hm, coeff_sub, coeff_X_pow, coeff_one]
        split <;> split <;> simp
      zify at h hmm; omega

end Cyclo
end Spffl
