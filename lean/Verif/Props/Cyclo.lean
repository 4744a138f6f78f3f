/-
Properties C71 (cyclotomic polynomials and their memo table) and C89 (reduction of rational polynomials to
finite fields).

The memo table is an argument and a result.  `Sat True` allows undefined behaviour (`int` overflow of an
intermediate coefficient) but neither an exception nor non-termination; the theorems without it rule overflow
out as well.
-/
import Verif.Proof.Cyclo3
import Verif.Proof.Cyclo4

namespace Spffl.Props
open Res
open Polynomial
open Cyclo

namespace Cyclo

/-- `q` is the `n`-th cyclotomic polynomial, with integer coefficients stored as fractions over 1. -/
def IsCyclo (n : ℕ) (q : CPoly IntRat) : Prop :=
  q.degree = n.totient ∧ ∀ i, i ≤ n.totient → q.coeffs[i]? = some ⟨(cyclotomic n ℤ).coeff i, 1⟩

/-- The memo table holds only cyclotomic polynomials. -/
def MemoOk (m : Memo) : Prop := m.length = 17 ∧ ∀ k q, m[k]? = some (some q) → IsCyclo k q

theorem coeff_rat (n i : ℕ) : (cyclotomic n ℚ).coeff i = ((cyclotomic n ℤ).coeff i : ℤ) := by
  rw [← map_cyclotomic_int, coeff_map, eq_intCast]

theorem isCyclo_of_rat {n : ℕ} {q : CPoly IntRat} (h : CPoly.PRep IntRat.Rep q (cyclotomic n ℚ)) : IsCyclo n q := by
  have hd := h.deg
  rw [natDegree_cyclotomic] at hd
  refine ⟨hd.symm, fun i hi => ?_⟩
  obtain ⟨e, he, hr⟩ := h.co i (by omega)
  rw [he]
  have := hr.num_eq
  rw [coeff_rat, Rat.num_intCast, Rat.den_intCast] at this
  cases e; simp_all

theorem isCyclo_of_int {n : ℕ} {q : CPoly IntRat} (h : CPoly.PRep ZRep q (cyclotomic n ℤ)) : IsCyclo n q := by
  have hd := h.deg
  rw [natDegree_cyclotomic] at hd
  refine ⟨hd.symm, fun i hi => ?_⟩
  obtain ⟨e, he, hr⟩ := h.co i (by omega)
  rw [he, hr.1]

theorem memo_small {m : Memo} (h : MemoOk m) {k : ℕ} {q : CPoly IntRat} (hk : m[k]? = some (some q)) (i : ℕ) :
    |(cyclotomic k ℤ).coeff i| ≤ 65536 := by
  have hl : k < 17 := by
    rw [← h.1]; exact (List.getElem?_eq_some_iff.mp hk).1
  rcases Nat.eq_zero_or_pos k with rfl | hk0
  · rw [cyclotomic_zero, coeff_one]; split <;> simp
  · have h1 := coeff_le_choose (cyclotomic.monic k ℤ) hk0 (by
      rw [map_cyclotomic, ← prod_cyclotomic_eq_X_pow_sub_one hk0]
      exact Finset.dvd_prod_of_mem _ (Nat.mem_divisors_self k (by omega))) i
    have h2 : (cyclotomic k ℤ).natDegree.choose i ≤ 2 ^ 16 := by
      rw [natDegree_cyclotomic]
      exact (Nat.choose_le_two_pow _ _).trans (Nat.pow_le_pow_right (by norm_num) ((Nat.totient_le k).trans (by omega)))
    have h3 : ((cyclotomic k ℤ).natDegree.choose i : ℤ) ≤ 65536 := by exact_mod_cast h2
    omega

theorem valid_int {m : Memo} (h : MemoOk m) : Valid ZRep m := by
  refine ⟨h.1, fun k q hk => ?_⟩
  obtain ⟨h1, h2⟩ := h.2 k q hk
  refine ⟨by rw [natDegree_cyclotomic, h1], fun i hi => ⟨_, h2 i (by omega), rfl, ?_⟩⟩
  have := memo_small h hk i; omega

theorem valid_rat {m : Memo} (h : MemoOk m) : Valid IntRat.Rep m := by
  refine ⟨h.1, fun k q hk => ?_⟩
  obtain ⟨h1, h2⟩ := h.2 k q hk
  refine ⟨by rw [natDegree_cyclotomic, h1], fun i hi => ⟨_, h2 i (by omega), ?_⟩⟩
  have := abs_le.mp (memo_small h hk i)
  rw [coeff_rat]
  exact rep_int (by unfold InInt; omega) (by unfold INT_MIN; omega)

theorem memoOk_of_rat {m : Memo} (h : Valid IntRat.Rep m) : MemoOk m :=
  ⟨h.1, fun k q hk => isCyclo_of_rat (h.2 k q hk)⟩

theorem memoOk_of_int {m : Memo} (h : Valid ZRep m) : MemoOk m :=
  ⟨h.1, fun k q hk => isCyclo_of_int (h.2 k q hk)⟩

theorem get_rat {n : ℕ} (h1 : 1 ≤ n) (h2 : n ≤ 2147483647) {m : Memo} (hm : MemoOk m) :
    (get_cyclo_qpoly n m).Sat True
      (fun s => CPoly.PRep IntRat.Rep s.1 (cyclotomic n ℚ) ∧ Valid IntRat.Rep s.2) := by
  unfold get_cyclo_qpoly
  have r0 : IntRat.Rep ⟨0, 1⟩ 0 := by simpa using rep_int (k := 0) (by decide) (by decide)
  have r1 : IntRat.Rep ⟨1, 1⟩ 1 := by simpa using rep_int (k := 1) (by decide) (by decide)
  have r2 : IntRat.Rep ⟨-1, 1⟩ (-1) := by simpa using rep_int (k := -1) (by decide) (by decide)
  exact getCyclo_sat IntRat.cops_ref.toCmp r0 r1 r2 _ n m h1 h2 (by omega) (divs_rat n) (valid_rat hm)

theorem get_tame {n : ℕ} (h1 : 1 ≤ n) (h2 : n ≤ 2147483647) (ht : Tame n) {m : Memo} (hm : MemoOk m) :
    ∃ q m', get_cyclo_qpoly n m = ok (q, m') ∧ IsCyclo n q ∧ MemoOk m' := by
  unfold get_cyclo_qpoly
  have := getCyclo_sat z_cmp z_zero ⟨rfl, by norm_num⟩ ⟨rfl, by norm_num⟩ _ n m h1 h2 (Nat.lt_succ_self n) (divs_int ht) (valid_int hm)
  obtain ⟨s, hs, a, b⟩ := sat_false.mp this
  exact ⟨s.1, s.2, hs, isCyclo_of_int a, memoOk_of_int b⟩

end Cyclo

open Cyclo

/-! ## C71 -/

theorem C71_memo_start : MemoOk Memo.init := memoOk_of_int valid_init

/-- Whatever has been computed before, `get_cyclo_qpoly(n)` gives the `n`-th cyclotomic polynomial unless an
intermediate coefficient overflows, and leaves the table in order. -/
theorem C71_qpoly_partial (n : ℕ) (h1 : 1 ≤ n) (h2 : n ≤ 2147483647) (m : Memo) (hm : MemoOk m) :
    (get_cyclo_qpoly n m).Sat True (fun s => IsCyclo n s.1 ∧ MemoOk s.2) :=
  (get_rat h1 h2 hm).mono fun _ hs => ⟨isCyclo_of_rat hs.1, memoOk_of_rat hs.2⟩

/-- Up to 33 nothing overflows. -/
theorem C71_qpoly_small (n : ℕ) (h1 : 1 ≤ n) (h2 : n ≤ 33) (m : Memo) (hm : MemoOk m) :
    ∃ q m', get_cyclo_qpoly n m = ok (q, m') ∧ IsCyclo n q ∧ MemoOk m' :=
  get_tame h1 (by omega) (tame_small h1 h2) hm

/-- For prime powers of any size nothing overflows. -/
theorem C71_qpoly_prime_power (p k : ℕ) (hp : p.Prime) (h : p ^ k ≤ 2147483647) (m : Memo) (hm : MemoOk m) :
    ∃ q m', get_cyclo_qpoly (p ^ k : ℕ) m = ok (q, m') ∧ IsCyclo (p ^ k) q ∧ MemoOk m' :=
  get_tame (pow_pos hp.pos k) h (tame_prime_pow hp) hm

theorem C71_nonpositive (n : Int) (h : n < 1) (m : Memo) : get_cyclo_qpoly n m = throw := by
  unfold get_cyclo_qpoly getCyclo; rw [if_pos h]

/-- A sequence of calls, each starting from the table left by the previous one: every answer that is given is
the cyclotomic polynomial asked for. -/
def calls : List ℕ → Memo → Res (List (CPoly IntRat) × Memo)
  | [], m => ok ([], m)
  | n :: ns, m => do
    let s ← get_cyclo_qpoly n m
    let t ← calls ns s.2
    ok (s.1 :: t.1, t.2)

theorem C71_history_partial (ns : List ℕ) (h : ∀ n ∈ ns, 1 ≤ n ∧ n ≤ 2147483647) :
    (calls ns Memo.init).Sat True (fun s => List.Forall₂ IsCyclo ns s.1) := by
  have key : ∀ (ns : List ℕ) (m : Memo), (∀ n ∈ ns, 1 ≤ n ∧ n ≤ 2147483647) → MemoOk m →
      (calls ns m).Sat True (fun s => List.Forall₂ IsCyclo ns s.1) := by
    intro ns
    induction ns with
    | nil => intro m _ _; unfold calls; exact List.Forall₂.nil
    | cons n ns ih =>
      intro m h hm
      unfold calls
      refine (C71_qpoly_partial n (h n (by simp)).1 (h n (by simp)).2 m hm).bind fun s ⟨h1, h2⟩ => ?_
      refine (ih s.2 (fun k hk => h k (by simp [hk])) h2).bind fun t ht => ?_
      exact List.Forall₂.cons h1 ht
  exact key ns _ h C71_memo_start

section Reduced
variable {p : ℕ} [hp : Fact p.Prime]

theorem den_cyclo (n i q : ℕ) (hq : 1 < q) : ¬ q ∣ ((cyclotomic n ℚ).coeff i).den := by
  rw [coeff_rat, Rat.den_intCast, Nat.dvd_one]; omega

theorem cast_cyclo (n i : ℕ) : (((cyclotomic n ℚ).coeff i : ℚ) : ZMod p) = (cyclotomic n (ZMod p)).coeff i := by
  rw [coeff_rat, Rat.cast_intCast, ← map_cyclotomic_int n (ZMod p), coeff_map, eq_intCast]

/-- The polynomial over Fp is the cyclotomic polynomial over Fp, in canonical form. -/
theorem C71_fp_partial (hb : p ≤ 46341) (n : ℕ) (h1 : 1 ≤ n) (h2 : n ≤ 2147483647) (m : Memo) (hm : MemoOk m) :
    (get_cyclo_fp_poly n p m).Sat True
      (fun s => CPoly.PRep (IntMod.Rep p) s.1 (cyclotomic n (ZMod p)) ∧ MemoOk s.2) := by
  unfold get_cyclo_fp_poly
  refine (get_rat h1 h2 hm).bind fun s ⟨hs1, hs2⟩ => ?_
  refine (fp_from_ok hb hs1 (fun i => den_cyclo n i p hp.out.one_lt)).sat.bind fun r ⟨r1, r2, r3⟩ => ?_
  have hd := hs1.deg
  rw [natDegree_cyclotomic] at hd
  refine ⟨⟨by rw [natDegree_cyclotomic, r1, hd], fun i hi => ?_⟩, memoOk_of_rat hs2⟩
  rw [← cast_cyclo]; exact r3 i (by rw [← r1]; exact Nat.lt_succ_iff.mp hi)

theorem C71_f2n_partial (im : F2P) (hc : F2P.Canon im) (hdeg : 1 ≤ (F2P.toPoly im).natDegree) (n : ℕ) (h1 : 1 ≤ n)
    (h2 : n ≤ 2147483647) (m : Memo) (hm : MemoOk m) :
    (get_cyclo_f2n_poly n im m).Sat True
      (fun s => CPoly.PRep (F2Mod.Rep (F2P.toPoly im)) s.1 (cyclotomic n (AdjoinRoot (F2P.toPoly im))) ∧
        MemoOk s.2) := by
  have : Nontrivial (AdjoinRoot (F2P.toPoly im)) :=
    AdjoinRoot.nontrivial _ (by intro h; rw [natDegree_eq_zero_iff_degree_le_zero.mpr h.le] at hdeg; omega)
  unfold get_cyclo_f2n_poly
  refine (get_rat h1 h2 hm).bind fun s ⟨hs1, hs2⟩ => ?_
  refine (f2n_from_ok hc hdeg hs1 (fun i => den_cyclo n i 2 (by omega))).sat.bind fun r ⟨r1, r2, r3⟩ => ?_
  have hd := hs1.deg
  rw [natDegree_cyclotomic] at hd
  refine ⟨⟨by rw [natDegree_cyclotomic, r1, hd], fun i hi => ?_⟩, memoOk_of_rat hs2⟩
  have e : algebraMap (ZMod 2) (AdjoinRoot (F2P.toPoly im)) (((cyclotomic n ℚ).coeff i : ℚ) : ZMod 2)
      = (cyclotomic n (AdjoinRoot (F2P.toPoly im))).coeff i := by
    rw [cast_cyclo, ← map_cyclotomic n (algebraMap (ZMod 2) (AdjoinRoot (F2P.toPoly im))), coeff_map]
  rw [← e]; exact r3 i (by rw [← r1]; exact Nat.lt_succ_iff.mp hi)

theorem C71_fpn_partial (hb : p ≤ 46341) (im : CPoly IntMod) (M : (ZMod p)[X])
    (him : CPoly.PRep (IntMod.Rep p) im M) (hM : M ≠ 0) (n : ℕ) (h1 : 1 ≤ n)
    (h2 : n ≤ 2147483647) (m : Memo) (hm : MemoOk m) :
    (get_cyclo_fpn_poly n im m).Sat True
      (fun s => CPoly.PRep (CMod.Rep (IntMod.Rep p) M) s.1 (cyclotomic n (AdjoinRoot M)) ∧ MemoOk s.2) := by
  unfold get_cyclo_fpn_poly
  refine (get_rat h1 h2 hm).bind fun s ⟨hs1, hs2⟩ => ?_
  refine (fpn_from_ok hb him hM hs1 (fun i => den_cyclo n i p hp.out.one_lt)
    (cyclotomic n (AdjoinRoot M)) fun i => ?_).sat.bind fun r hr => ⟨hr, memoOk_of_rat hs2⟩
  rw [cast_cyclo, ← map_cyclotomic n (algebraMap (ZMod p) (AdjoinRoot M)), coeff_map]

end Reduced

/-- Over F2 the result is right if its degree is at most 30 … -/
theorem C71_f2_partial (n : ℕ) (h1 : 1 ≤ n) (h2 : n ≤ 2147483647) (h30 : n.totient ≤ 30) (m : Memo) (hm : MemoOk m) :
    (get_cyclo_f2_poly n m).Sat True
      (fun s => F2P.Canon s.1 ∧ F2P.toPoly s.1 = cyclotomic n (ZMod 2) ∧ MemoOk s.2) := by
  unfold get_cyclo_f2_poly
  refine (get_rat h1 h2 hm).bind fun s ⟨hs1, hs2⟩ => ?_
  have hd := hs1.deg
  rw [natDegree_cyclotomic] at hd
  refine (f2_from_ok hs1 (by omega) (fun i => den_cyclo n i 2 (by omega))).sat.bind fun r ⟨r1, r2⟩ => ?_
  exact ⟨r1, by ext i; rw [r2 i, cast_cyclo (p := 2)], memoOk_of_rat hs2⟩

/-- … and undefined for every other `n`. -/
theorem C71_violated_f2 (n : ℕ) (h1 : 1 ≤ n) (h2 : n ≤ 2147483647) (h30 : 30 < n.totient) (m : Memo) (hm : MemoOk m) :
    get_cyclo_f2_poly n m = ub := by
  unfold get_cyclo_f2_poly
  have hs := get_rat h1 h2 hm
  cases e : get_cyclo_qpoly n m with
  | ub => rfl
  | throw => rw [e] at hs; exact hs.elim
  | timeout => rw [e] at hs; exact hs.elim
  | ok s =>
    rw [e, Sat_ok] at hs
    have hd := hs.1.deg
    rw [natDegree_cyclotomic] at hd
    have heven : Even n.totient := by
      apply Nat.totient_even
      by_contra hc
      have := Nat.totient_le n; omega
    obtain ⟨t, ht⟩ := heven
    rw [ok_bind, f2_from_ub hs.1 (by omega) (by omega) (fun i => den_cyclo n i 2 (by omega))]
    · rfl
    · rw [(cyclotomic.monic n ℚ).leadingCoeff]; simp

/-! ## C89 -/

section Reduction
variable {p : ℕ} [hp : Fact p.Prime]

/-- A fraction in lowest terms is reduced modulo p exactly when p does not divide the denominator. -/
theorem C89_fraction (hb : p ≤ 46341) (r : IntRat) (x : ℚ) (hr : IntRat.Rep r x) :
    (¬ p ∣ x.den → ∃ a, intmod_from_rat r p = ok a ∧ IntMod.Rep p a ((x.num : ZMod p) / (x.den : ZMod p))) ∧
    (p ∣ x.den → intmod_from_rat r p = throw) := by
  refine ⟨fun h => ?_, intmod_from_rat_throw hb hr⟩
  obtain ⟨a, h1, h2⟩ := intmod_from_rat_ok hb hr h
  rw [Rat.cast_def] at h2
  exact ⟨a, h1, h2⟩

theorem C89_bit (r : IntRat) (x : ℚ) (hr : IntRat.Rep r x) :
    (¬ 2 ∣ x.den → bit_from_rat r = ok (decide (x.num % 2 = 1))) ∧ (2 ∣ x.den → bit_from_rat r = throw) := by
  refine ⟨fun h => ?_, bit_from_rat_throw hr⟩
  obtain ⟨e1, e2⟩ := hr.num_eq
  unfold bit_from_rat; rw [e1, e2, if_neg (by omega)]

/-- Reducing a rational polynomial modulo p: coefficient by coefficient, canonical if the leading coefficient
does not vanish. -/
theorem C89_fp_partial (hb : p ≤ 46341) (q : CPoly IntRat) (F : ℚ[X]) (hq : CPoly.PRep IntRat.Rep q F)
    (hd : ∀ i, ¬ p ∣ (F.coeff i).den) (hl : ¬ (p : ℤ) ∣ F.leadingCoeff.num) :
    ∃ r G, fp_poly_from_qpoly q p = ok r ∧ CPoly.PRep (IntMod.Rep p) r G ∧
      ∀ i, G.coeff i = (F.coeff i : ZMod p) := by
  obtain ⟨r, h, r1, r2, r3⟩ := fp_from_ok hb hq hd
  have hG : ∃ G : (ZMod p)[X], ∀ i, G.coeff i = (F.coeff i : ZMod p) := by
    refine ⟨∑ i ∈ Finset.range (F.natDegree + 1), C ((F.coeff i : ℚ) : ZMod p) * X ^ i, fun i => ?_⟩
    rw [finset_sum_coeff]
    simp only [coeff_C_mul, coeff_X_pow, mul_ite, mul_one, mul_zero]
    rw [Finset.sum_ite_eq]
    split
    · rfl
    · rename_i hc
      rw [Finset.mem_range, not_lt] at hc
      rw [coeff_eq_zero_of_natDegree_lt (by omega)]; simp
  obtain ⟨G, hG⟩ := hG
  refine ⟨r, G, h, ⟨le_antisymm ?_ ?_, fun i hi => ?_⟩, hG⟩
  · rw [natDegree_le_iff_coeff_eq_zero]
    intro i hi
    rw [hG, coeff_eq_zero_of_natDegree_lt (by rw [hq.deg]; omega)]; simp
  · apply le_natDegree_of_ne_zero
    rw [hG, r1, ← hq.deg]
    show ((F.leadingCoeff : ℚ) : ZMod p) ≠ 0
    rw [Rat.cast_def]
    refine div_ne_zero ?_ (den_cast.mpr ?_)
    · rw [Ne, ZMod.intCast_zmod_eq_zero_iff_dvd]; exact hl
    · exact hd _
  · rw [hG]; exact r3 i (by omega)

/-- If p divides the leading numerator the object is not canonical: its degree member is too large. -/
theorem C89_violated_fp (hb : p ≤ 46341) (q : CPoly IntRat) (F : ℚ[X]) (hq : CPoly.PRep IntRat.Rep q F)
    (hd : ∀ i, ¬ p ∣ (F.coeff i).den) (hl : (p : ℤ) ∣ F.leadingCoeff.num) (h1 : 1 ≤ F.natDegree) :
    ∃ r, fp_poly_from_qpoly q p = ok r ∧ ∀ G, ¬ CPoly.PRep (IntMod.Rep p) r G := by
  obtain ⟨r, h, r1, r2, r3⟩ := fp_from_ok hb hq hd
  refine ⟨r, h, fun G hG => ?_⟩
  obtain ⟨e, he, hr⟩ := r3 q.degree le_rfl
  obtain ⟨e', he', hr'⟩ := hG.co r.degree (by omega)
  rw [r1, he] at he'
  cases he'
  have h0 : G.coeff r.degree = 0 := by
    have : (e.residue : ZMod p) = G.coeff r.degree := hr'.2.2.2
    rw [← this, hr.2.2.2, ← hq.deg]
    show ((F.leadingCoeff : ℚ) : ZMod p) = 0
    rw [Rat.cast_def, (ZMod.intCast_zmod_eq_zero_iff_dvd _ _).mpr hl, zero_div]
  have hn := hG.deg
  rw [← hn] at h0
  have hG0 : G = 0 := leadingCoeff_eq_zero.mp h0
  rw [hG0, natDegree_zero, r1, ← hq.deg] at hn
  omega

/-- fpn_poly_from_qpoly, which starts from a proper zero, is always canonical. -/
theorem C89_fpn (hb : p ≤ 46341) (im : CPoly IntMod) (M : (ZMod p)[X]) (him : CPoly.PRep (IntMod.Rep p) im M)
    (hM : M ≠ 0) (q : CPoly IntRat) (F : ℚ[X]) (hq : CPoly.PRep IntRat.Rep q F)
    (hd : ∀ i, ¬ p ∣ (F.coeff i).den) (G : (AdjoinRoot M)[X])
    (hG : ∀ i, G.coeff i = algebraMap (ZMod p) (AdjoinRoot M) (F.coeff i : ZMod p)) :
    ∃ r, fpn_poly_from_qpoly q im = ok r ∧ CPoly.PRep (CMod.Rep (IntMod.Rep p) M) r G :=
  fpn_from_ok hb him hM hq hd G hG

end Reduction

/-- Reduction modulo 2 into f2_poly_t is right up to degree 30, whatever the leading coefficient. -/
theorem C89_f2_partial (q : CPoly IntRat) (F : ℚ[X]) (hq : CPoly.PRep IntRat.Rep q F) (h30 : F.natDegree ≤ 30)
    (hd : ∀ i, ¬ 2 ∣ (F.coeff i).den) :
    ∃ r, f2_poly_from_q_poly q = ok r ∧ F2P.Canon r ∧ ∀ i, (F2P.toPoly r).coeff i = (F.coeff i : ZMod 2) :=
  f2_from_ok hq (by rw [← hq.deg]; exact h30) hd

theorem C89_violated_f2 (q : CPoly IntRat) (F : ℚ[X]) (hq : CPoly.PRep IntRat.Rep q F) (h32 : 32 ≤ F.natDegree)
    (hne : F.natDegree % 64 ≠ 31) (hd : ∀ i, ¬ 2 ∣ (F.coeff i).den) (hl : ¬ (2 : ℤ) ∣ F.leadingCoeff.num) :
    f2_poly_from_q_poly q = ub := by
  rw [hq.deg] at h32 hne
  refine f2_from_ub hq h32 hne hd ?_
  have h2 : ∀ z : ZMod 2, z ≠ 0 → z = 1 := by decide
  apply h2
  rw [Rat.cast_def]
  refine div_ne_zero ?_ (den_cast.mpr (hd _))
  rw [Ne, ZMod.intCast_zmod_eq_zero_iff_dvd]; exact hl

theorem C89_f2n_partial (im : F2P) (hc : F2P.Canon im) (hdeg : 1 ≤ (F2P.toPoly im).natDegree) (q : CPoly IntRat)
    (F : ℚ[X]) (hq : CPoly.PRep IntRat.Rep q F) (hd : ∀ i, ¬ 2 ∣ (F.coeff i).den) :
    ∃ r, f2n_poly_from_qpoly q im = ok r ∧ r.degree = F.natDegree ∧ ∀ i, i ≤ F.natDegree →
      ∃ a, r.coeffs[i]? = some a ∧ F2Mod.Rep (F2P.toPoly im) a
        (algebraMap (ZMod 2) (AdjoinRoot (F2P.toPoly im)) (F.coeff i : ZMod 2)) := by
  obtain ⟨r, h, r1, r2, r3⟩ := f2n_from_ok hc hdeg hq hd
  exact ⟨r, h, by rw [r1, hq.deg], fun i hi => r3 i (by rw [← hq.deg]; exact hi)⟩

/-! ## Examples -/

-- the twelfth cyclotomic polynomial x^4 - x^2 + 1, leaving its divisors in the table
example : (do let s ← get_cyclo_qpoly 12 Memo.init; ok s.1) =
    ok ⟨4, [⟨1, 1⟩, ⟨0, 1⟩, ⟨-1, 1⟩, ⟨0, 1⟩, ⟨1, 1⟩]⟩ := by decide +kernel
-- asked again with a table filled by other calls
example : (do let s ← calls [6, 4, 12, 18, 12] Memo.init; ok (s.1.getLast?)) =
    ok (some ⟨4, [⟨1, 1⟩, ⟨0, 1⟩, ⟨-1, 1⟩, ⟨0, 1⟩, ⟨1, 1⟩]⟩) := by decide +kernel
example : (do let s ← get_cyclo_fp_poly 12 3 Memo.init; ok s.1) =
    ok ⟨4, [⟨1, 3⟩, ⟨0, 3⟩, ⟨2, 3⟩, ⟨0, 3⟩, ⟨1, 3⟩]⟩ := by decide +kernel
example : (do let s ← get_cyclo_f2_poly 15 Memo.init; ok s.1) = ok [0x1bb#64] := by decide +kernel
-- 37 is the first n whose polynomial over F2 is out of reach
example : get_cyclo_f2_poly 37 Memo.init = ub :=
  C71_violated_f2 37 (by norm_num) (by norm_num) (by decide +kernel) _ C71_memo_start
-- 2x + 1 modulo 2 keeps degree 1
example : fp_poly_from_qpoly ⟨1, [⟨1, 1⟩, ⟨2, 1⟩]⟩ 2 = ok ⟨1, [⟨1, 2⟩, ⟨0, 2⟩]⟩ := by decide +kernel
example : f2n_poly_from_qpoly ⟨1, [⟨1, 1⟩, ⟨2, 1⟩]⟩ [7#64] = ok ⟨1, [⟨[1#64], [7#64]⟩, ⟨[0#64], [7#64]⟩]⟩ := by
  decide +kernel
example : intmod_from_rat ⟨1, 2⟩ 7 = ok ⟨4, 7⟩ := by decide +kernel
example : intmod_from_rat ⟨1, 14⟩ 7 = throw := by decide +kernel

end Spffl.Props
