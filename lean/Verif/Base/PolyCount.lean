/-
Facts about polynomials over a finite field which the totient and irreducible-search properties need; nothing here
refers to the modelled code.
-/
import Verif.Base.Berlekamp
import Mathlib.FieldTheory.Finite.Extension
import Mathlib.FieldTheory.PrimitiveElement
import Mathlib.RingTheory.Polynomial.Basic
import Mathlib.RingTheory.AdjoinRoot

namespace Spffl
open Polynomial

variable {K : Type} [Field K] [Fintype K]

/-- Over a finite field there are irreducible polynomials of every positive degree. -/
theorem exists_irreducible_degree {n : ℕ} (hn : 0 < n) : ∃ f : K[X], f.Monic ∧ Irreducible f ∧ f.natDegree = n := by
  haveI : NeZero n := ⟨by omega⟩
  obtain ⟨p, hp⟩ := CharP.exists K
  haveI : Fact p.Prime := ⟨CharP.char_is_prime K p⟩
  let E := FiniteField.Extension K p n
  have hE : Module.finrank K E = n := FiniteField.finrank_extension K p n
  let pb := Field.powerBasisOfFiniteOfSeparable K E
  refine ⟨minpoly K pb.gen, minpoly.monic pb.isIntegral_gen, minpoly.irreducible pb.isIntegral_gen, ?_⟩
  rw [pb.natDegree_minpoly, ← pb.finrank, hE]

/-- The number of residues prime to `f`: Euler's totient for polynomials. -/
noncomputable def polyTotient (f : K[X]) : ℕ := Nat.card {g : K[X] // g.degree < f.degree ∧ IsCoprime g f}

theorem card_degree_lt (n : ℕ) : Nat.card {g : K[X] // g.degree < n} = Fintype.card K ^ n := by
  have e : {g : K[X] // g.degree < n} ≃ (Fin n → K) :=
    (Equiv.subtypeEquivRight fun g => by rw [mem_degreeLT]).trans (degreeLTEquiv K n).toEquiv
  rw [Nat.card_congr e, Nat.card_eq_fintype_card, Fintype.card_fun, Fintype.card_fin]

instance (n : ℕ) : Finite {g : K[X] // g.degree < n} :=
  Nat.finite_of_card_ne_zero (by rw [card_degree_lt]; exact pow_ne_zero _ Fintype.card_ne_zero)

theorem finite_totient {f : K[X]} (hf : f ≠ 0) : Finite {g : K[X] // g.degree < f.degree ∧ IsCoprime g f} := by
  refine Finite.of_injective (β := {g : K[X] // g.degree < (f.natDegree : WithBot ℕ)})
    (fun g => ⟨g.1, by rw [← degree_eq_natDegree hf]; exact g.2.1⟩) fun a b h => Subtype.ext (by simpa using h)

theorem isCoprime_of_dvd_sub {a b f : K[X]} (h : f ∣ a - b) (hb : IsCoprime b f) : IsCoprime a f := by
  obtain ⟨c, hc⟩ := h
  have : a = b + c * f := by rw [mul_comm c f, ← hc]; ring
  rw [this]; exact IsCoprime.add_mul_right_left hb c

theorem polyTotient_mul {a b : K[X]} (ha : a ≠ 0) (hb : b ≠ 0) (hab : IsCoprime a b) :
    polyTotient (a * b) = polyTotient a * polyTotient b := by
  unfold polyTotient
  rw [← Nat.card_prod]
  refine Nat.card_congr (Equiv.ofBijective (fun g => (⟨g.1 % a, EuclideanDomain.mod_lt _ ha, ?_⟩, ⟨g.1 % b, EuclideanDomain.mod_lt _ hb, ?_⟩)) ⟨?_, ?_⟩)
  · exact isCoprime_of_dvd_sub (by rw [← neg_sub, dvd_neg]; exact dvd_sub_mod g.1 a) g.2.2.of_mul_right_left
  · exact isCoprime_of_dvd_sub (by rw [← neg_sub, dvd_neg]; exact dvd_sub_mod g.1 b) g.2.2.of_mul_right_right
  · intro g h e
    simp only [Prod.mk.injEq, Subtype.mk.injEq] at e
    apply Subtype.ext
    refine eq_of_dvd_sub g.2.1 h.2.1 (hab.mul_dvd ?_ ?_)
    · have := dvd_sub (dvd_sub_mod g.1 a) (dvd_sub_mod h.1 a)
      rw [e.1] at this; simpa using this
    · have := dvd_sub (dvd_sub_mod g.1 b) (dvd_sub_mod h.1 b)
      rw [e.2] at this; simpa using this
  · rintro ⟨⟨u, hu, hu'⟩, ⟨v, hv, hv'⟩⟩
    obtain ⟨s, t, hst⟩ := id hab
    set w := u * (t * b) + v * (s * a) with hw
    have h1 : a ∣ w - u := ⟨v * s - u * s, by rw [hw]; linear_combination u * hst⟩
    have h2 : b ∣ w - v := ⟨u * t - v * t, by rw [hw]; linear_combination v * hst⟩
    have hc : IsCoprime w (a * b) := IsCoprime.mul_right (isCoprime_of_dvd_sub h1 hu') (isCoprime_of_dvd_sub h2 hv')
    have h3 := dvd_sub_mod w (a * b)
    refine ⟨⟨w % (a * b), EuclideanDomain.mod_lt _ (mul_ne_zero ha hb), isCoprime_of_dvd_sub (by rw [← neg_sub, dvd_neg]; exact h3) hc⟩, ?_⟩
    have key : ∀ {c r : K[X]}, c ≠ 0 → c ∣ a * b → r.degree < c.degree → c ∣ w - r → w % (a * b) % c = r := by
      intro c r hc hcab hr hwr
      refine eq_of_dvd_sub (EuclideanDomain.mod_lt _ hc) hr ?_
      have h4 := dvd_sub_mod (w % (a * b)) c
      have h5 := dvd_sub (dvd_sub hwr (hcab.trans h3)) h4
      have : w - r - (w - w % (a * b)) - (w % (a * b) - w % (a * b) % c) = w % (a * b) % c - r := by ring
      rwa [this] at h5
    simp only [Prod.mk.injEq, Subtype.mk.injEq]
    exact ⟨key ha (dvd_mul_right _ _) hu h1, key hb (dvd_mul_left _ _) hv h2⟩

theorem polyTotient_prime_pow {p : K[X]} (hp : Irreducible p) {e : ℕ} (he : 0 < e) :
    polyTotient (p ^ e) = Fintype.card K ^ (p.natDegree * (e - 1)) * (Fintype.card K ^ p.natDegree - 1) := by
  set d := p.natDegree with hd
  set q := Fintype.card K with hq
  have hp0 : p ≠ 0 := hp.ne_zero
  have hdeg : (p ^ e).degree = ((d * e : ℕ) : WithBot ℕ) := by
    rw [degree_eq_natDegree (pow_ne_zero _ hp0), natDegree_pow, mul_comm]
  have hdp : p.degree = (d : WithBot ℕ) := degree_eq_natDegree hp0
  have hsplit : d * e = d * (e - 1) + d := by
    obtain ⟨k, rfl⟩ : ∃ k, e = k + 1 := ⟨e - 1, by omega⟩
    rw [Nat.add_sub_cancel]; ring
  -- those not prime to `p^e` are the multiples of `p`
  have e1 : {g : K[X] // g.degree < ((d * (e - 1) : ℕ) : WithBot ℕ)} ≃ {g : {g : K[X] // g.degree < ((d * e : ℕ) : WithBot ℕ)} // ¬ IsCoprime g.1 (p ^ e)} := by
    refine Equiv.ofBijective (fun g => ⟨⟨p * g.1, ?_⟩, ?_⟩) ⟨?_, ?_⟩
    · rw [degree_mul, hdp, hsplit, Nat.cast_add, add_comm ((d * (e - 1) : ℕ) : WithBot ℕ)]
      by_cases h0 : g.1 = 0
      · rw [h0, degree_zero, WithBot.add_bot]; exact_mod_cast WithBot.bot_lt_coe _
      · have := g.2
        rw [degree_eq_natDegree h0] at this ⊢
        exact_mod_cast Nat.add_lt_add_left (by exact_mod_cast this) d
    · intro hc
      exact hp.not_isUnit ((hc.of_isCoprime_of_dvd_left (dvd_mul_right p g.1)).isUnit_of_dvd' (dvd_refl p) (dvd_pow_self p (by omega)))
    · intro a b h
      simp only [Subtype.mk.injEq] at h
      exact Subtype.ext (mul_left_cancel₀ hp0 h)
    · rintro ⟨⟨g, hg⟩, hg'⟩
      have hdvd : p ∣ g := by
        by_contra hn
        exact hg' ((((Irreducible.coprime_iff_not_dvd hp).mpr hn).symm).pow_right)
      obtain ⟨h, rfl⟩ := hdvd
      refine ⟨⟨h, ?_⟩, rfl⟩
      by_cases h0 : h = 0
      · rw [h0, degree_zero]; exact_mod_cast WithBot.bot_lt_coe _
      · rw [degree_mul, hdp, hsplit, degree_eq_natDegree h0] at hg
        rw [degree_eq_natDegree h0]
        have : d + h.natDegree < d * (e - 1) + d := by exact_mod_cast hg
        exact_mod_cast (by omega : h.natDegree < d * (e - 1))
  have e2 : {g : K[X] // g.degree < (p ^ e).degree ∧ IsCoprime g (p ^ e)} ≃ {g : {g : K[X] // g.degree < ((d * e : ℕ) : WithBot ℕ)} // IsCoprime g.1 (p ^ e)} := by
    rw [hdeg]
    exact (Equiv.subtypeSubtypeEquivSubtypeInter _ _).symm
  have h3 : Nat.card {g : {g : K[X] // g.degree < ((d * e : ℕ) : WithBot ℕ)} // IsCoprime g.1 (p ^ e)} +
      Nat.card {g : {g : K[X] // g.degree < ((d * e : ℕ) : WithBot ℕ)} // ¬ IsCoprime g.1 (p ^ e)} = q ^ (d * e) := by
    classical
    rw [← card_degree_lt, ← Nat.card_sum]
    exact Nat.card_congr (Equiv.sumCompl _)
  rw [← Nat.card_congr e1, card_degree_lt, ← hq] at h3
  unfold polyTotient
  rw [Nat.card_congr e2, Nat.mul_sub, mul_one, ← pow_add, ← hsplit]
  omega

theorem polyTotient_one : polyTotient (1 : K[X]) = 1 := by
  unfold polyTotient
  rw [Nat.card_eq_one_iff_exists]
  refine ⟨⟨0, by simp, isCoprime_one_right⟩, fun g => Subtype.ext ?_⟩
  have h := g.2.1
  generalize g.1 = x at h
  rw [degree_one] at h
  exact degree_eq_bot.mp (Nat.WithBot.lt_zero_iff.mp h)

/-- `polyTotient f` is the order of the group of units of `K[X]/(f)`. -/
theorem card_units {f : K[X]} (hf : f ≠ 0) :
    Nat.card (AdjoinRoot f)ˣ = Nat.card {g : K[X] // g.degree < f.degree ∧ IsCoprime g f} := by
  have hunit : ∀ g : K[X], IsCoprime g f → IsUnit (AdjoinRoot.mk f g) := by
    rintro g ⟨a, b, hab⟩
    refine IsUnit.of_mul_eq_one (AdjoinRoot.mk f a) ?_
    rw [← map_mul, ← map_one (AdjoinRoot.mk f), AdjoinRoot.mk_eq_mk]
    exact ⟨-b, by linear_combination hab⟩
  refine (Nat.card_congr (Equiv.ofBijective (fun g : {g : K[X] // g.degree < f.degree ∧ IsCoprime g f} => (hunit g.1 g.2.2).unit) ⟨?_, ?_⟩)).symm
  · intro g h e
    have e' : AdjoinRoot.mk f g.1 = AdjoinRoot.mk f h.1 := congrArg Units.val e
    exact Subtype.ext (eq_of_dvd_sub g.2.1 h.2.1 (AdjoinRoot.mk_eq_mk.mp e'))
  · intro u
    obtain ⟨g, hg⟩ := AdjoinRoot.mk_surjective u.1
    obtain ⟨h, hh⟩ := AdjoinRoot.mk_surjective u⁻¹.1
    have hc : IsCoprime g f := by
      have h1 : AdjoinRoot.mk f (g * h) = AdjoinRoot.mk f 1 := by rw [map_mul, hg, hh, map_one]; exact u.mul_inv
      obtain ⟨c, hc⟩ := AdjoinRoot.mk_eq_mk.mp h1
      exact ⟨h, -c, by linear_combination hc⟩
    have h2 := dvd_sub_mod g f
    refine ⟨⟨g % f, EuclideanDomain.mod_lt _ hf, isCoprime_of_dvd_sub (by rw [← neg_sub, dvd_neg]; exact h2) hc⟩, Units.ext ?_⟩
    rw [IsUnit.unit_spec, ← hg, AdjoinRoot.mk_eq_mk, ← neg_sub, dvd_neg]
    exact h2

theorem polyTotient_pos {f : K[X]} (hf : f ≠ 0) : 0 < polyTotient f := by
  haveI := finite_totient hf
  unfold polyTotient
  rw [Nat.card_pos_iff]
  refine ⟨?_, inferInstance⟩
  by_cases h0 : f.natDegree = 0
  · have hu : IsUnit f := by
      rw [eq_C_of_natDegree_eq_zero h0, isUnit_C]
      exact isUnit_iff_ne_zero.mpr fun h => hf (by rw [eq_C_of_natDegree_eq_zero h0, h, C_0])
    exact ⟨⟨0, by rw [degree_zero, bot_lt_iff_ne_bot, ne_eq, degree_eq_bot]; exact hf, (isCoprime_zero_left).mpr hu⟩⟩
  · exact ⟨⟨1, by rw [degree_one, degree_eq_natDegree hf]; exact_mod_cast Nat.pos_of_ne_zero h0, isCoprime_one_left⟩⟩

theorem prod_pow_ne_zero {l : List (K[X] × ℕ)} (hirr : ∀ q ∈ l, Irreducible q.1) :
    (l.map fun q => q.1 ^ q.2).prod ≠ 0 := by
  induction l with
  | nil => simp
  | cons p l ih =>
    rw [List.map_cons, List.prod_cons]
    exact mul_ne_zero (pow_ne_zero _ (hirr p (by simp)).ne_zero) (ih fun q hq => hirr q (by simp [hq]))

theorem polyTotient_list {l : List (K[X] × ℕ)} (hirr : ∀ q ∈ l, Irreducible q.1) (hpos : ∀ q ∈ l, 0 < q.2)
    (hcop : l.Pairwise fun p q => IsCoprime p.1 q.1) :
    polyTotient (l.map fun q => q.1 ^ q.2).prod =
      (l.map fun q => Fintype.card K ^ (q.1.natDegree * (q.2 - 1)) * (Fintype.card K ^ q.1.natDegree - 1)).prod := by
  induction l with
  | nil => simpa using polyTotient_one
  | cons p l ih =>
    rw [List.pairwise_cons] at hcop
    rw [List.map_cons, List.prod_cons, List.map_cons, List.prod_cons, polyTotient_mul, polyTotient_prime_pow (hirr p (by simp)) (hpos p (by simp)),
      ih (fun q hq => hirr q (by simp [hq])) (fun q hq => hpos q (by simp [hq])) hcop.2]
    · exact pow_ne_zero _ (hirr p (by simp)).ne_zero
    · exact prod_pow_ne_zero fun q hq => hirr q (by simp [hq])
    · refine IsCoprime.pow_left ?_
      clear ih
      have := hcop.1
      clear hcop
      induction l with
      | nil => simpa using isCoprime_one_right
      | cons q l ih =>
        rw [List.map_cons, List.prod_cons]
        exact IsCoprime.mul_right (this q (by simp)).pow_right
          (ih (fun r hr => hirr r (by simp at hr ⊢; tauto)) (fun r hr => hpos r (by simp at hr ⊢; tauto)) fun r hr => this r (by simp [hr]))

end Spffl
