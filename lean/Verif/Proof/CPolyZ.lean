import Verif.Proof.Cyclo2

/-!
# Sums, differences and products of polynomials with integer coefficients, without overflow

The size of a polynomial is the sum of the absolute values of its coefficients.  No operation on coefficients overflows as long as the
size of the result, bounded by the sum or product of the sizes, is a value of `int`.
-/

namespace Spffl
open Res Polynomial CPoly Cyclo

/-- The sum of the absolute values of the coefficients. -/
noncomputable def size (f : ℤ[X]) : ℤ := ∑ i ∈ f.support, |f.coeff i|

theorem size_of_subset {f : ℤ[X]} {S : Finset ℕ} (h : f.support ⊆ S) : size f = ∑ i ∈ S, |f.coeff i| :=
  Finset.sum_subset h fun i _ hi => by rw [notMem_support_iff.1 hi, abs_zero]

theorem size_nonneg (f : ℤ[X]) : 0 ≤ size f := Finset.sum_nonneg fun _ _ => abs_nonneg _

theorem coeff_le_size (f : ℤ[X]) (i : ℕ) : |f.coeff i| ≤ size f := by
  by_cases h : i ∈ f.support
  · exact Finset.single_le_sum (f := fun i => |f.coeff i|) (fun _ _ => abs_nonneg _) h
  · rw [notMem_support_iff.1 h, abs_zero]; exact size_nonneg f

theorem size_zero : size 0 = 0 := by simp [size]

theorem size_add_le (f g : ℤ[X]) : size (f + g) ≤ size f + size g := by
  rw [size_of_subset (support_add (p := f) (q := g)), size_of_subset (f := f) Finset.subset_union_left,
    size_of_subset (f := g) Finset.subset_union_right, ← Finset.sum_add_distrib]
  exact Finset.sum_le_sum fun i _ => by rw [coeff_add]; exact abs_add_le _ _

theorem size_neg (f : ℤ[X]) : size (-f) = size f := by simp [size]

theorem size_sub_le (f g : ℤ[X]) : size (f - g) ≤ size f + size g := by
  rw [sub_eq_add_neg, ← size_neg g]; exact size_add_le _ _

theorem size_mono_mul (i : ℕ) (a : ℤ) (g : ℤ[X]) : size (C a * X ^ i * g) ≤ |a| * size g := by
  have e : C a * X ^ i * g = C a * g * X ^ i := by ring
  have hs : (C a * X ^ i * g).support ⊆ g.support.map (addRightEmbedding i) := by
    intro j hj
    rw [mem_support_iff, e, coeff_mul_X_pow'] at hj
    split at hj
    · rename_i h
      rw [coeff_C_mul] at hj
      rw [Finset.mem_map]
      exact ⟨j - i, mem_support_iff.2 fun h0 => hj (by rw [h0, mul_zero]), by simp [h]⟩
    · exact absurd rfl hj
  rw [size_of_subset hs, Finset.sum_map, size, Finset.mul_sum]
  refine Finset.sum_le_sum fun j _ => ?_
  rw [e, addRightEmbedding_apply, coeff_mul_X_pow, coeff_C_mul, abs_mul]

theorem size_term (i : ℕ) (a : ℤ) : size (C a * X ^ i) ≤ |a| := by
  have := size_mono_mul i a 1
  rw [mul_one] at this
  have h1 : size 1 = 1 := by
    rw [size_of_subset (f := 1) (S := {0}) (by rw [← C_1]; exact support_C_subset 1)]; simp
  rwa [h1, mul_one] at this

theorem lowp_coeff (f : ℤ[X]) (n k : ℕ) : (lowp f n).coeff k = if k < n then f.coeff k else 0 := by
  unfold lowp
  simp [finsetSum_coeff, coeff_X_pow]

/-- What is accumulated in a product. -/
theorem size_lowp_le (f : ℤ[X]) (n : ℕ) : size (lowp f n) ≤ size f := by
  have hs : (lowp f n).support ⊆ f.support := by
    intro j hj
    rw [mem_support_iff, lowp_coeff] at hj
    split at hj
    · exact mem_support_iff.2 hj
    · exact absurd rfl hj
  rw [size_of_subset hs]
  refine Finset.sum_le_sum fun i _ => ?_
  rw [lowp_coeff]
  split
  · exact le_rfl
  · rw [abs_zero]; exact abs_nonneg _

theorem size_lowp_mul (f g : ℤ[X]) (n : ℕ) : size (lowp f n * g) ≤ (∑ i ∈ Finset.range n, |f.coeff i|) * size g := by
  induction n with
  | zero => rw [lowp_zero, zero_mul, size_zero]; simp
  | succ n ih =>
    rw [lowp_succ, add_mul, Finset.sum_range_succ, add_mul]
    exact (size_add_le _ _).trans (add_le_add ih (size_mono_mul _ _ _))

theorem sum_range_le (f : ℤ[X]) (n : ℕ) : (∑ i ∈ Finset.range n, |f.coeff i|) ≤ size f := by
  rw [size_of_subset (f := f) (S := f.support ∪ Finset.range n) Finset.subset_union_left]
  exact Finset.sum_le_sum_of_subset_of_nonneg Finset.subset_union_right fun _ _ _ => abs_nonneg _

theorem size_mul_le (f g : ℤ[X]) : size (f * g) ≤ size f * size g := by
  conv_lhs => rw [← lowp_all (p := f) rfl]
  exact (size_lowp_mul f g _).trans (mul_le_mul_of_nonneg_right (sum_range_le f _) (size_nonneg g))

theorem size_partial (f g : ℤ[X]) (i j : ℕ) : size (lowp f i * g + C (f.coeff i) * X ^ i * lowp g j) ≤ size f * size g := by
  have h1 := size_lowp_mul f g i
  have h2 := (size_mono_mul i (f.coeff i) (lowp g j)).trans (mul_le_mul_of_nonneg_left (size_lowp_le g j) (abs_nonneg (f.coeff i)))
  have h3 := mul_le_mul_of_nonneg_right (sum_range_le f (i + 1)) (size_nonneg g)
  rw [Finset.sum_range_succ, add_mul] at h3
  exact (size_add_le _ _).trans ((add_le_add h1 h2).trans h3)

/-! ### The operations on the coefficients -/

theorem z_add {a b : IntRat} {x y : ℤ} (ha : ZRep a x) (hb : ZRep b y) (h : |x + y| ≤ 2147483647) :
    (IntRat.add a b).Sat False (fun r => ZRep r (x + y)) := by
  obtain ⟨rfl, h1⟩ := ha
  obtain ⟨rfl, h2⟩ := hb
  have h' := h
  rw [abs_le] at h1 h2 h'
  unfold IntRat.add imul iadd
  simp only [mul_one, one_mul]
  rw [chk_ok (by unfold InInt; omega), ok_bind, chk_ok (by unfold InInt; omega), ok_bind,
    chk_ok (by unfold InInt; omega), ok_bind, chk_ok (by decide), ok_bind, simplify_int h]
  exact ⟨rfl, h⟩

theorem z_neg {a : IntRat} {x : ℤ} (ha : ZRep a x) : (IntRat.neg a).Sat False (fun r => ZRep r (-x)) := by
  obtain ⟨rfl, h1⟩ := ha
  have h' := h1
  rw [abs_le] at h'
  unfold IntRat.neg ineg
  dsimp only
  rw [chk_ok (by unfold InInt; omega), ok_bind]
  exact ⟨rfl, by rwa [abs_neg]⟩

/-! ### The operations on the polynomials -/

variable {a b : CPoly IntRat} {f g : ℤ[X]}

theorem addz_ok (ha : PRep ZRep a f) (hb : PRep ZRep b g) (h : size f + size g ≤ 2147483647) :
    (add IntRat.cops a b).Sat False (fun r => PRep ZRep r (f + g)) := by
  have hd := natDegree_add_le f g
  rw [ha.deg, hb.deg] at hd
  have hz : ∀ i, |f.coeff i + g.coeff i| ≤ 2147483647 := fun i => by
    have := (coeff_le_size (f + g) i).trans ((size_add_le f g).trans h)
    rwa [coeff_add] at this
  unfold add
  split
  · rename_i h
    refine (fillUp_sat (f := fun i _ => do let x ← rd a.coeffs i; let y ← rd b.coeffs i; IntRat.cops.add x y)
      (P := fun i e => ZRep e ((f + g).coeff i)) (by omega) (by simp [new]; omega)
      fun i s _ hi _ _ _ => ?_).bind fun cs hh2 => ?_
    · refine (rd_sat (ha.co i hi)).bind fun x hx => (rd_sat (hb.co i (by omega))).bind fun y hy => ?_
      rw [coeff_add]; exact z_add hx hy (hz i)
    obtain ⟨h1, h2, _⟩ := hh2
    refine (fillUp_sat (f := fun i _ => rd b.coeffs i) (P := fun i e => ZRep e ((f + g).coeff i)) (by omega)
      (by rw [h1]; simp [new]) fun i s hi1 hi2 _ _ _ => ?_).bind fun ds hh3 => ?_
    · rw [coeff_add, coeff_eq_zero_of_natDegree_lt (p := f) (by rw [ha.deg]; omega), zero_add]
      exact rd_sat (hb.co i hi2)
    obtain ⟨h3, h4, h5⟩ := hh3
    exact recompute_cmp z_cmp (join_holds (by omega) h2 h4 h5 h1) (by omega)
  · rename_i h
    refine (fillUp_sat (f := fun i _ => do let x ← rd a.coeffs i; let y ← rd b.coeffs i; IntRat.cops.add x y)
      (P := fun i e => ZRep e ((f + g).coeff i)) (by omega) (by simp [new]; omega)
      fun i s _ hi _ _ _ => ?_).bind fun cs hh4 => ?_
    · refine (rd_sat (ha.co i (by omega))).bind fun x hx => (rd_sat (hb.co i hi)).bind fun y hy => ?_
      rw [coeff_add]; exact z_add hx hy (hz i)
    obtain ⟨h1, h2, _⟩ := hh4
    refine (fillUp_sat (f := fun i _ => rd a.coeffs i) (P := fun i e => ZRep e ((f + g).coeff i)) (by omega)
      (by rw [h1]; simp [new]) fun i s hi1 hi2 _ _ _ => ?_).bind fun ds hh5 => ?_
    · rw [coeff_add, coeff_eq_zero_of_natDegree_lt (p := g) (by rw [hb.deg]; omega), add_zero]
      exact rd_sat (ha.co i hi2)
    obtain ⟨h3, h4, h5⟩ := hh5
    exact recompute_cmp z_cmp (join_holds (by omega) h2 h4 h5 h1) (by omega)

theorem subz_ok (ha : PRep ZRep a f) (hb : PRep ZRep b g) (h : size f + size g ≤ 2147483647) :
    (sub IntRat.cops a b).Sat False (fun r => PRep ZRep r (f - g)) := by
  have hd := natDegree_sub_le f g
  rw [ha.deg, hb.deg] at hd
  have hz : ∀ i, |f.coeff i - g.coeff i| ≤ 2147483647 := fun i => by
    have := (coeff_le_size (f - g) i).trans ((size_sub_le f g).trans h)
    rwa [coeff_sub] at this
  unfold sub
  split
  · rename_i h
    refine (fillUp_sat (f := fun i _ => do let x ← rd a.coeffs i; let y ← rd b.coeffs i; IntRat.cops.sub x y)
      (P := fun i e => ZRep e ((f - g).coeff i)) (by omega) (by simp [new]; omega)
      fun i s _ hi _ _ _ => ?_).bind fun cs hh6 => ?_
    · refine (rd_sat (ha.co i hi)).bind fun x hx => (rd_sat (hb.co i (by omega))).bind fun y hy => ?_
      rw [coeff_sub]; exact z_sub hx hy (hz i)
    obtain ⟨h1, h2, _⟩ := hh6
    refine (fillUp_sat (f := fun i _ => do let y ← rd b.coeffs i; IntRat.cops.neg y)
      (P := fun i e => ZRep e ((f - g).coeff i)) (by omega)
      (by rw [h1]; simp [new]) fun i s hi1 hi2 _ _ _ => ?_).bind fun ds hh7 => ?_
    · rw [coeff_sub, coeff_eq_zero_of_natDegree_lt (p := f) (by rw [ha.deg]; omega), zero_sub]
      exact (rd_sat (hb.co i hi2)).bind fun y hy => z_neg hy
    obtain ⟨h3, h4, h5⟩ := hh7
    exact recompute_cmp z_cmp (join_holds (by omega) h2 h4 h5 h1) (by omega)
  · rename_i h
    refine (fillUp_sat (f := fun i _ => do let x ← rd a.coeffs i; let y ← rd b.coeffs i; IntRat.cops.sub x y)
      (P := fun i e => ZRep e ((f - g).coeff i)) (by omega) (by simp [new]; omega)
      fun i s _ hi _ _ _ => ?_).bind fun cs hh8 => ?_
    · refine (rd_sat (ha.co i (by omega))).bind fun x hx => (rd_sat (hb.co i hi)).bind fun y hy => ?_
      rw [coeff_sub]; exact z_sub hx hy (hz i)
    obtain ⟨h1, h2, _⟩ := hh8
    refine (fillUp_sat (f := fun i _ => rd a.coeffs i) (P := fun i e => ZRep e ((f - g).coeff i)) (by omega)
      (by rw [h1]; simp [new]) fun i s hi1 hi2 _ _ _ => ?_).bind fun ds hh9 => ?_
    · rw [coeff_sub, coeff_eq_zero_of_natDegree_lt (p := g) (by rw [hb.deg]; omega), sub_zero]
      exact rd_sat (ha.co i hi2)
    obtain ⟨h3, h4, h5⟩ := hh9
    exact recompute_cmp z_cmp (join_holds (by omega) h2 h4 h5 h1) (by omega)

theorem mulAccz_ok {a b cs : List IntRat} {n i j : ℕ} {x y : ℤ} {F : ℤ[X]}
    (hx : At a i (fun e => ZRep e x)) (hy : At b j (fun e => ZRep e y)) (hcs : Holds ZRep cs n F) (hn : i + j < n)
    (h1 : |x * y| ≤ 2147483647) (h2 : |F.coeff (i + j) + x * y| ≤ 2147483647) :
    (mulAcc IntRat.cops a b i j cs).Sat False (fun r => Holds ZRep r n (F + C (x * y) * X ^ (i + j))) := by
  unfold mulAcc
  refine (rd_sat hx).bind fun u hu => (rd_sat hy).bind fun v hv => (z_mul hu hv h1).bind fun p hp => ?_
  refine (rd_sat (hcs _ hn)).bind fun c hc => (z_add hc hp h2).bind fun s hs => ?_
  rw [wr_ok (hcs _ hn).lt, Sat_ok]
  intro k hk
  rw [coeff_add, coeff_C_mul, coeff_X_pow]
  by_cases h : k = i + j
  · subst h; exact at_set_self (hcs _ hn).lt (by simpa using hs)
  · rw [if_neg h, mul_zero, add_zero]
    exact (hcs k hk).congr (List.getElem?_set_ne (Ne.symm h))

theorem mulz_ok (ha : PRep ZRep a f) (hb : PRep ZRep b g) (h : size f * size g ≤ 2147483647) :
    (mul IntRat.cops a b).Sat False (fun r => PRep ZRep r (f * g)) := by
  unfold mul
  refine (rd_sat ha.c0).bind fun c0 h0 => (z_sub h0 h0 (by simp)).bind fun z hz => ?_
  rw [sub_self] at hz
  refine (fillUp_sat (f := fun _ _ => ok z) (P := fun i e => ZRep e ((0 : ℤ[X]).coeff i)) (by omega) (by simp [new])
    fun i s _ hi _ _ _ => by simpa using hz).bind fun cs hh11 => ?_
  obtain ⟨h1, h2, _⟩ := hh11
  refine (forUp_sat (fun i (s : List IntRat) => Holds ZRep s (a.degree + b.degree + 1) (lowp f i * g)) (by omega)
    (by rw [lowp_zero, zero_mul]; exact fun i hi => h2 i (by omega) hi) fun i s _ hi hs => ?_).bind fun cs hcs => ?_
  · refine (forUp_sat (fun j (s : List IntRat) => Holds ZRep s (a.degree + b.degree + 1)
      (lowp f i * g + C (f.coeff i) * X ^ i * lowp g j)) (by omega)
      (by rw [lowp_zero, mul_zero, add_zero]; exact hs) fun j s _ hj hs => ?_).mono fun s hs => ?_
    · have e : lowp f i * g + C (f.coeff i) * X ^ i * (lowp g j + C (g.coeff j) * X ^ j) =
        lowp f i * g + C (f.coeff i) * X ^ i * lowp g j + C (f.coeff i * g.coeff j) * X ^ (i + j) := by
        rw [C_mul, pow_add]; ring
      have b1 : |f.coeff i * g.coeff j| ≤ 2147483647 := by
        rw [abs_mul]
        exact (mul_le_mul (coeff_le_size f i) (coeff_le_size g j) (abs_nonneg _) (size_nonneg f)).trans h
      have b2 := (coeff_le_size _ (i + j)).trans ((size_partial f g i (j + 1)).trans h)
      rw [lowp_succ, e, coeff_add, coeff_C_mul, coeff_X_pow_self, mul_one] at b2
      refine (mulAccz_ok (ha.co i hi) (hb.co j hj) hs (by omega) b1 b2).mono fun s hs => ?_
      rw [lowp_succ, e]; exact hs
    · rw [lowp_all hb.deg] at hs
      rw [lowp_succ, add_mul]; exact hs
  · rw [lowp_all ha.deg] at hcs
    refine recompute_cmp z_cmp hcs ?_
    have := natDegree_mul_le (p := f) (q := g)
    rw [ha.deg, hb.deg] at this; exact this

end Spffl
