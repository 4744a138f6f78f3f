/-
Facts about polynomials over a field used by the division and gcd proofs.
-/
import Mathlib.Algebra.Polynomial.FieldDivision
import Mathlib.Tactic.LinearCombination

namespace Spffl
open Polynomial

/-- Uniqueness of Euclidean division. -/
theorem poly_div_mod_unique {K : Type*} [Field K] {a d q r : K[X]} (h : a = q * d + r)
    (hr : r.degree < d.degree) : a / d = q ∧ a % d = r := by
  have hd : d ≠ 0 := by rintro rfl; simp at hr
  have h1 := EuclideanDomain.div_add_mod a d
  have h2 : (a % d).degree < d.degree := EuclideanDomain.mod_lt a hd
  have h3 : d * (a / d - q) = r - a % d := by linear_combination h1 + h
  have h4 : a / d - q = 0 := by
    by_contra hne
    have : (d * (a / d - q)).degree < d.degree := by
      rw [h3]; exact (degree_sub_le _ _).trans_lt (max_lt hr h2)
    rw [degree_mul] at this
    have h5 : (0 : WithBot ℕ) ≤ (a / d - q).degree := zero_le_degree_iff.mpr hne
    have := this.trans_le (le_add_of_nonneg_right (a := d.degree) h5)
    exact lt_irrefl _ this
  have h5 : a / d = q := sub_eq_zero.mp h4
  refine ⟨h5, ?_⟩
  rw [h4] at h3
  simp at h3
  exact (sub_eq_zero.mp h3.symm).symm

/-- `g` is a greatest common divisor of `a` and `b`: it divides both, and every common divisor divides it. -/
def IsGcd {R : Type*} [CommRing R] (d a b : R) : Prop := d ∣ a ∧ d ∣ b ∧ ∀ c, c ∣ a → c ∣ b → c ∣ d

theorem isGcd_lin {R : Type*} [CommRing R] {a b d q r : R} (e : a = q * b + r) (h : IsGcd d b r) : IsGcd d a b := by
  refine ⟨?_, h.1, fun c h1 h2 => h.2.2 c h2 ?_⟩
  · rw [e]; exact dvd_add (h.1.mul_left _) h.2.1
  · have : r = a - q * b := by rw [e]; ring
    rw [this]; exact dvd_sub h1 (h2.mul_left _)

theorem isGcd_step {K : Type*} [Field K] {a b d : K[X]} (h : IsGcd d b (a % b)) : IsGcd d a b :=
  isGcd_lin (q := a / b) (by rw [mul_comm]; exact (EuclideanDomain.div_add_mod a b).symm) h

theorem isGcd_base {K : Type*} [Field K] {a b : K[X]} (h : a % b = 0) : IsGcd b a b := by
  refine ⟨?_, dvd_rfl, fun c _ h2 => h2⟩
  have e := EuclideanDomain.div_add_mod a b
  rw [← e, h, add_zero]; exact dvd_mul_right _ _

/-- a smaller degree is a smaller `natDegree`, unless the smaller polynomial vanishes -/
theorem natDegree_lt_of_degree_lt {R : Type*} [CommRing R] {r d : R[X]} (hr : r ≠ 0) (h : r.degree < d.degree) :
    r.natDegree < d.natDegree := natDegree_lt_natDegree hr h

end Spffl
