/-
Berlekamp's theorem in the form the factorization code uses it: facts about polynomials over a finite field,
independent of the code.
-/
import Mathlib.FieldTheory.Finite.Basic
import Mathlib.RingTheory.Coprime.Lemmas
import Mathlib.RingTheory.PrincipalIdealDomain
import Mathlib.Algebra.Squarefree.Basic
import Mathlib.LinearAlgebra.Matrix.Rank
import Verif.Base.PolyLemmas

namespace Spffl
open Polynomial

variable {K : Type} [Field K] {n : ℕ}

/-- The polynomial with coefficient vector `v`, leading coefficient first. -/
noncomputable def ofVec (v : Fin n → K) : K[X] := ∑ i : Fin n, C (v i) * X ^ (n - 1 - (i : ℕ))

theorem coeff_ofVec (v : Fin n → K) (i : Fin n) : (ofVec v).coeff (n - 1 - i) = v i := by
  unfold ofVec
  rw [finsetSum_coeff, Finset.sum_eq_single i]
  · simp
  · intro b _ hb
    rw [coeff_C_mul, coeff_X_pow, if_neg, mul_zero]
    intro h; apply hb; ext; have := b.2; have := i.2; omega
  · simp

theorem degree_ofVec (v : Fin n → K) : (ofVec v).degree < n := by
  unfold ofVec
  rw [← mem_degreeLT]
  refine Submodule.sum_mem _ fun i _ => ?_
  rw [mem_degreeLT]
  refine (degree_C_mul_X_pow_le _ _).trans_lt ?_
  have := i.2
  exact_mod_cast (by omega : n - 1 - (i : ℕ) < n)

theorem ofVec_add (v w : Fin n → K) : ofVec (v + w) = ofVec v + ofVec w := by
  unfold ofVec; rw [← Finset.sum_add_distrib]
  exact Finset.sum_congr rfl fun i _ => by simp [add_mul]

theorem ofVec_smul (c : K) (v : Fin n → K) : ofVec (c • v) = C c * ofVec v := by
  unfold ofVec; rw [Finset.mul_sum]
  exact Finset.sum_congr rfl fun i _ => by simp [mul_assoc]

theorem ofVec_sum {ι : Type} (s : Finset ι) (g : ι → Fin n → K) : ofVec (∑ i ∈ s, g i) = ∑ i ∈ s, ofVec (g i) := by
  classical
  induction s using Finset.induction_on with
  | empty => simp [ofVec]
  | insert a s ha ih => rw [Finset.sum_insert ha, Finset.sum_insert ha, ofVec_add, ih]

theorem ofVec_inj {v w : Fin n → K} (h : ofVec v = ofVec w) : v = w := by
  funext i; rw [← coeff_ofVec v i, h, coeff_ofVec]

theorem ofVec_coeff {p : K[X]} (h : p.degree < n) : ofVec (fun i : Fin n => p.coeff (n - 1 - i)) = p := by
  rcases Nat.eq_zero_or_pos n with h0 | h0
  · subst h0
    have : p = 0 := by rw [← degree_eq_bot]; simpa using h
    subst this; simp [ofVec]
  ext t
  by_cases ht : t < n
  · have := coeff_ofVec (fun i : Fin n => p.coeff (n - 1 - i)) ⟨n - 1 - t, by omega⟩
    simp only at this
    rwa [show n - 1 - (n - 1 - t) = t by omega] at this
  · rw [coeff_eq_zero_of_degree_lt ((degree_ofVec _).trans_le (by exact_mod_cast (by omega : n ≤ t))),
      coeff_eq_zero_of_degree_lt (h.trans_le (by exact_mod_cast (by omega : n ≤ t)))]

theorem ofVec_eq_zero {v : Fin n → K} : ofVec v = 0 ↔ v = 0 := by
  constructor
  · intro h; apply ofVec_inj; rw [h]; simp [ofVec]
  · rintro rfl; simp [ofVec]

/-- The matrix of `h ↦ h^q - h` on polynomials modulo `f`, in the coordinates of `ofVec`: column `n-1-j` holds
`x^(q j) mod f`. -/
noncomputable def berMat (q : ℕ) (f : K[X]) (n : ℕ) : Matrix (Fin n) (Fin n) K :=
  fun a b => (((X ^ q) ^ (n - 1 - (b : ℕ)) : K[X]) % f).coeff (n - 1 - a) - if a = b then 1 else 0

theorem mod_degree_lt {f : K[X]} (hf : f ≠ 0) (a : K[X]) : (a % f).degree < f.natDegree := by
  rw [← degree_eq_natDegree hf]; exact EuclideanDomain.mod_lt a hf

theorem dvd_sub_mod (a f : K[X]) : f ∣ a - a % f :=
  ⟨a / f, by linear_combination -(EuclideanDomain.div_add_mod a f)⟩

theorem eq_of_dvd_sub {f a b : K[X]} (ha : a.degree < f.degree) (hb : b.degree < f.degree) (h : f ∣ a - b) : a = b := by
  by_contra hne
  have := degree_le_of_dvd h (sub_ne_zero.mpr hne)
  exact absurd ((degree_sub_le a b).trans_lt (max_lt ha hb)) (not_lt.mpr this)

/-- The kernel of the matrix consists of the `h` with `h^q = h` modulo `f`. -/
theorem berMat_ker [Fintype K] {f : K[X]} (hf : f ≠ 0) (hn : f.natDegree = n) (v : Fin n → K) :
    (berMat (Fintype.card K) f n).mulVec v = 0 ↔ f ∣ ofVec v ^ Fintype.card K - ofVec v := by
  set q := Fintype.card K with hq
  set W : K[X] := ∑ i : Fin n, C (v i) * (((X ^ q) ^ (n - 1 - (i : ℕ)) : K[X]) % f) with hW
  have hWd : W.degree < n := by
    rw [← mem_degreeLT]
    refine Submodule.sum_mem _ fun i _ => ?_
    rw [mem_degreeLT]
    rw [← smul_eq_C_mul]
    exact (degree_smul_le _ _).trans_lt ((mod_degree_lt hf _).trans_eq (by rw [hn]))
  have hpow : ofVec v ^ q = ∑ i : Fin n, C (v i) * ((X ^ q) ^ (n - 1 - (i : ℕ)) : K[X]) := by
    rw [← FiniteField.expand_card]
    unfold ofVec
    rw [map_sum]
    exact Finset.sum_congr rfl fun i _ => by simp [hq]
  have hdvd : f ∣ ofVec v ^ q - W := by
    rw [hpow, hW, ← Finset.sum_sub_distrib]
    refine Finset.dvd_sum fun i _ => ?_
    rw [← mul_sub]
    exact (dvd_sub_mod _ _).mul_left _
  have hentry : ∀ a : Fin n, (berMat q f n).mulVec v a = (W - ofVec v).coeff (n - 1 - a) := by
    intro a
    rw [coeff_sub, coeff_ofVec, hW, finsetSum_coeff, Matrix.mulVec, dotProduct]
    simp only [berMat, sub_mul, Finset.sum_sub_distrib, ite_mul, one_mul, zero_mul, Finset.sum_ite_eq, Finset.mem_univ, if_true]
    congr 1
    exact Finset.sum_congr rfl fun b _ => by rw [coeff_C_mul, mul_comm]
  have hfd : f.degree = n := by rw [degree_eq_natDegree hf, hn]
  have hz : (berMat q f n).mulVec v = 0 ↔ W = ofVec v := by
    constructor
    · intro h
      rw [← ofVec_coeff hWd]
      congr 1; funext a
      have := congrFun h a
      rw [hentry, coeff_sub, coeff_ofVec] at this
      exact sub_eq_zero.mp this
    · intro h
      funext a; rw [hentry, h]; simp
  rw [hz]
  constructor
  · intro h; rw [h] at hdvd; exact hdvd
  · intro h
    refine eq_of_dvd_sub (by rw [hfd]; exact hWd) (by rw [hfd]; exact degree_ofVec v) ?_
    have := dvd_sub h hdvd
    convert this using 1; ring

/-- A splitting of `f` into `k` pairwise coprime non-constant factors gives `k` independent vectors in the kernel. -/
theorem le_nullity [Fintype K] {f : K[X]} (hf : f ≠ 0) {k : ℕ} (a : Fin k → K[X]) (hdeg : ∀ i, 0 < (a i).natDegree)
    (hcop : Pairwise fun i j => IsCoprime (a i) (a j)) (hprod : f = ∏ i, a i) :
    k ≤ f.natDegree - (berMat (Fintype.card K) f f.natDegree).rank := by
  classical
  set q := Fintype.card K
  have hq : q ≠ 0 := Fintype.card_ne_zero
  -- idempotents
  have hex : ∀ i, ∃ e : K[X], (∀ j, j ≠ i → a j ∣ e) ∧ a i ∣ e - 1 := by
    intro i
    have hc : IsCoprime (a i) (∏ j ∈ Finset.univ.erase i, a j) :=
      IsCoprime.prod_right fun j hj => hcop (Finset.ne_of_mem_erase hj).symm
    obtain ⟨u, w, huw⟩ := hc
    refine ⟨w * ∏ j ∈ Finset.univ.erase i, a j, fun j hj => ?_, ?_⟩
    · exact (Finset.dvd_prod_of_mem a (Finset.mem_erase.mpr ⟨hj, Finset.mem_univ _⟩)).mul_left _
    · exact ⟨-u, by linear_combination huw⟩
  choose e he1 he2 using hex
  have hdvdf : ∀ i, f ∣ e i ^ q - e i := by
    intro i
    rw [hprod]
    refine Finset.prod_dvd_of_coprime (fun x _ y _ hxy => hcop hxy) fun j _ => ?_
    by_cases hj : j = i
    · subst hj
      have h1 : e j - 1 ∣ e j ^ q - 1 ^ q := sub_dvd_pow_sub_pow _ _ q
      rw [one_pow] at h1
      have := dvd_sub ((he2 j).trans h1) (he2 j)
      convert this using 1; ring
    · exact dvd_sub (dvd_pow (he1 i j hj) hq) (he1 i j hj)
  have hfd : f.degree = f.natDegree := degree_eq_natDegree hf
  let v : Fin k → Fin f.natDegree → K := fun i t => (e i % f).coeff (f.natDegree - 1 - t)
  have hv : ∀ i, ofVec (v i) = e i % f := fun i => ofVec_coeff (mod_degree_lt hf _)
  have hmem : ∀ i, v i ∈ LinearMap.ker (berMat q f f.natDegree).mulVecLin := by
    intro i
    rw [LinearMap.mem_ker, Matrix.mulVecLin_apply, berMat_ker hf rfl, hv]
    have h1 : f ∣ e i - e i % f := dvd_sub_mod _ _
    have h2 : f ∣ e i ^ q - (e i % f) ^ q := h1.trans (sub_dvd_pow_sub_pow _ _ q)
    have := dvd_add (dvd_sub (hdvdf i) h2) h1
    convert this using 1; ring
  have hind : LinearIndependent K v := by
    rw [Fintype.linearIndependent_iff]
    intro c hc i
    have h0 : ∑ j, C (c j) * (e j % f) = 0 := by
      have := congrArg ofVec hc
      rw [ofVec_sum] at this
      simp only [ofVec_smul, hv] at this
      rw [this]; exact ofVec_eq_zero.mpr rfl
    have h1 : a i ∣ ∑ j, C (c j) * e j := by
      have : ∑ j, C (c j) * e j = ∑ j, C (c j) * (e j - e j % f) := by
        simp only [mul_sub, Finset.sum_sub_distrib, h0, sub_zero]
      rw [this]
      refine Finset.dvd_sum fun j _ => (Dvd.dvd.trans ?_ (dvd_sub_mod (e j) f)).mul_left _
      rw [hprod]; exact Finset.dvd_prod_of_mem a (Finset.mem_univ _)
    have h2 : a i ∣ ∑ j, C (c j) * e j - C (c i) := by
      rw [← Finset.add_sum_erase _ _ (Finset.mem_univ i)]
      have h3 : a i ∣ C (c i) * (e i - 1) := (he2 i).mul_left _
      have h4 : a i ∣ ∑ j ∈ Finset.univ.erase i, C (c j) * e j :=
        Finset.dvd_sum fun j hj => (he1 j i (Finset.ne_of_mem_erase hj).symm).mul_left _
      have := dvd_add h3 h4
      convert this using 1; ring
    have h3 : a i ∣ C (c i) := by
      have := dvd_sub h1 h2
      convert this using 1; ring
    by_contra hne
    have h4 := natDegree_le_of_dvd h3 (by simpa using hne)
    rw [natDegree_C] at h4
    have := hdeg i; omega
  have hker := LinearMap.finrank_range_add_finrank_ker (berMat q f f.natDegree).mulVecLin
  have hrank : (berMat q f f.natDegree).rank = Module.finrank K (LinearMap.range (berMat q f f.natDegree).mulVecLin) := rfl
  have hind' : LinearIndependent K (fun i => (⟨v i, hmem i⟩ : LinearMap.ker (berMat q f f.natDegree).mulVecLin)) :=
    LinearIndependent.of_comp (Submodule.subtype _) (by simpa [Function.comp_def] using hind)
  have hcard := hind'.fintype_card_le_finrank
  rw [Fintype.card_fin] at hcard
  rw [← hrank] at hker
  simp only [Module.finrank_fintype_fun_eq_card, Fintype.card_fin] at hker
  omega

theorem natDegree_pos_of_not_unit {f : K[X]} (hf : f ≠ 0) (h : ¬ IsUnit f) : 0 < f.natDegree := by
  rcases Nat.eq_zero_or_pos f.natDegree with h0 | h0
  · exfalso; apply h
    rw [eq_C_of_natDegree_eq_zero h0] at hf ⊢
    exact isUnit_C.mpr (IsUnit.mk0 _ (by simpa using hf))
  · exact h0

theorem not_unit_of_natDegree_pos {f : K[X]} (h : 0 < f.natDegree) : ¬ IsUnit f := fun hu => by
  have := natDegree_eq_zero_of_isUnit hu; omega

theorem coprime_of_squarefree {a b : K[X]} (h : Squarefree (a * b)) : IsCoprime a b := by
  rw [squarefree_mul_iff] at h
  exact h.1.isCoprime

theorem irreducible_of_nullity_one [Fintype K] {f : K[X]} (hs : Squarefree f) (hd : 0 < f.natDegree)
    (h : f.natDegree - (berMat (Fintype.card K) f f.natDegree).rank = 1) : Irreducible f := by
  have hf : f ≠ 0 := by rintro rfl; simp at hd
  refine ⟨not_unit_of_natDegree_pos hd, fun a b hab => ?_⟩
  by_contra hc
  push Not at hc
  have hab0 : a * b ≠ 0 := by rw [← hab]; exact hf
  have hcop := coprime_of_squarefree (hab ▸ hs)
  have := le_nullity hf ![a, b]
    (fun i => by
      fin_cases i
      · exact natDegree_pos_of_not_unit (left_ne_zero_of_mul hab0) hc.1
      · exact natDegree_pos_of_not_unit (right_ne_zero_of_mul hab0) hc.2)
    (fun i j hij => by
      fin_cases i <;> fin_cases j <;> simp at hij ⊢
      · exact hcop
      · exact hcop.symm)
    (by simp [Fin.prod_univ_two, hab])
  omega

theorem irreducible_of_nullity_two [Fintype K] {f a b : K[X]} (hs : Squarefree f) (hab : f = a * b) (ha : 0 < a.natDegree)
    (hb : 0 < b.natDegree) (h : f.natDegree - (berMat (Fintype.card K) f f.natDegree).rank ≤ 2) : Irreducible a := by
  have hf : f ≠ 0 := hs.ne_zero
  have hab0 : a * b ≠ 0 := by rw [← hab]; exact hf
  refine ⟨not_unit_of_natDegree_pos ha, fun c d hcd => ?_⟩
  by_contra hc
  push Not at hc
  have hcd0 : c * d ≠ 0 := by rw [← hcd]; exact left_ne_zero_of_mul hab0
  have h1 : IsCoprime a b := coprime_of_squarefree (hab ▸ hs)
  have h2 : IsCoprime c d := coprime_of_squarefree (by
    have : Squarefree a := Squarefree.of_mul_left (hab ▸ hs : Squarefree (a * b))
    rwa [hcd] at this)
  rw [hcd] at h1
  have h3 := h1.of_mul_left_left
  have h4 := h1.of_mul_left_right
  have := le_nullity hf ![c, d, b]
    (fun i => by
      fin_cases i
      · exact natDegree_pos_of_not_unit (left_ne_zero_of_mul hcd0) hc.1
      · exact natDegree_pos_of_not_unit (right_ne_zero_of_mul hcd0) hc.2
      · exact hb)
    (fun i j hij => by
      fin_cases i <;> fin_cases j <;> simp at hij ⊢
      · exact h2
      · exact h3
      · exact h2.symm
      · exact h4
      · exact h3.symm
      · exact h4.symm)
    (by simp [Fin.prod_univ_three, hab, hcd])
  omega

/-- Two independent vectors are not both constant polynomials. -/
theorem exists_nonconst {d : ℕ} (hd : 2 ≤ d) {B : Fin d → Fin n → K} (h : LinearIndependent K B) :
    ∃ i, 0 < (ofVec (B i)).natDegree := by
  by_contra hc
  push Not at hc
  have hc' : ∀ i, ofVec (B i) = C ((ofVec (B i)).coeff 0) := fun i => eq_C_of_natDegree_eq_zero (by have := hc i; omega)
  let i0 : Fin d := ⟨0, by omega⟩
  let i1 : Fin d := ⟨1, by omega⟩
  have hne : i0 ≠ i1 := by simp [i0, i1]
  set c0 := (ofVec (B i0)).coeff 0
  set c1 := (ofVec (B i1)).coeff 0
  have hz : c1 • B i0 + (-c0) • B i1 = 0 := by
    apply ofVec_inj
    rw [ofVec_add, ofVec_smul, ofVec_smul, hc' i0, hc' i1, ofVec_eq_zero.mpr rfl, ← C_mul, ← C_mul, ← C_add]
    rw [show c1 * (ofVec (B i0)).coeff 0 + -c0 * (ofVec (B i1)).coeff 0 = 0 by show c1 * c0 + -c0 * c1 = 0; ring]
    simp
  have hz' : ∑ i ∈ ({i0, i1} : Finset (Fin d)), (if i = i0 then c1 else -c0) • B i = 0 := by
    rw [Finset.sum_pair hne, if_pos rfl, if_neg hne.symm]; exact hz
  have h1 : c1 = 0 := by
    have := linearIndependent_iff'.mp h _ _ hz' i0 (by simp)
    simpa using this
  have h2 := h.ne_zero i1
  apply h2
  apply ofVec_eq_zero.mp
  rw [hc' i1, show (ofVec (B i1)).coeff 0 = 0 from h1, C_0]

/-- A non-constant `h` of degree below `n` with `h^q = h` modulo `f` splits `f` by one of `gcd(f, h - c)`. -/
theorem exists_split [Fintype K] {f h : K[X]} (hf : 0 < f.natDegree) (hh : 0 < h.natDegree) (hlt : h.natDegree < f.natDegree)
    (hk : f ∣ h ^ Fintype.card K - h) : ∃ c : K, ∀ g, IsGcd g f (h - C c) → 0 < g.natDegree ∧ g.natDegree < f.natDegree := by
  classical
  have hf0 : f ≠ 0 := by rintro rfl; simp at hf
  have hprod : h ^ Fintype.card K - h = ∏ c : K, (h - C c) := by
    have h1 : (X ^ Fintype.card K - X : K[X]) = ∏ c : K, (X - C c) := by
      rw [← prod_multiset_X_sub_C_of_monic_of_roots_card_eq (p := (X ^ Fintype.card K - X : K[X])), FiniteField.roots_X_pow_card_sub_X]
      · rfl
      · exact monic_X_pow_sub (by rw [degree_X]; exact_mod_cast Fintype.one_lt_card)
      · rw [FiniteField.roots_X_pow_card_sub_X, FiniteField.X_pow_card_sub_X_natDegree_eq K Fintype.one_lt_card]; rfl
    have := congrArg (fun p : K[X] => p.comp h) h1
    simpa [Polynomial.prod_comp] using this
  rw [hprod] at hk
  have hsome : ∃ c : K, ¬ IsCoprime f (h - C c) := by
    by_contra hc
    push Not at hc
    have h1 : IsCoprime f (∏ c : K, (h - C c)) := IsCoprime.prod_right fun c _ => hc c
    have : IsUnit f := h1.isUnit_of_dvd' dvd_rfl hk
    exact not_unit_of_natDegree_pos hf this
  obtain ⟨c, hc⟩ := hsome
  refine ⟨c, fun g hg => ?_⟩
  have hhc : (h - C c).natDegree = h.natDegree := natDegree_sub_C
  have hne : h - C c ≠ 0 := by intro h0; rw [h0] at hhc; simp at hhc; omega
  have hg0 : g ≠ 0 := by rintro rfl; exact hf0 (zero_dvd_iff.mp hg.1)
  constructor
  · apply natDegree_pos_of_not_unit hg0
    intro hu
    apply hc
    rw [← isRelPrime_iff_isCoprime]
    intro d h1 h2
    exact isUnit_of_dvd_unit (hg.2.2 d h1 h2) hu
  · have := natDegree_le_of_dvd hg.2.1 hne
    omega

/-! ### what a factorization routine delivers -/

/-- `N` is a factorization of `p` into non-constant factors: into irreducible ones if `full`, and with a single
factor only if `p` is irreducible. -/
structure FactOut (full : Bool) (p : K[X]) (N : Multiset K[X]) : Prop where
  prod : N.prod = p
  pos : ∀ x ∈ N, 0 < x.natDegree
  irr : full = true → ∀ x ∈ N, Irreducible x
  one : N.card = 1 → Irreducible p

theorem FactOut.card_le {full : Bool} {p : K[X]} {N : Multiset K[X]} (h : FactOut full p N) : N.card ≤ p.natDegree := by
  rw [← h.prod, natDegree_multiset_prod]
  · have := Multiset.card_nsmul_le_sum (s := N.map natDegree) (a := 1) (by
      intro x hx
      obtain ⟨y, hy, rfl⟩ := Multiset.mem_map.mp hx
      exact h.pos y hy)
    simpa using this
  · intro h0; have := h.pos 0 h0; simp at this

theorem FactOut.card_pos {full : Bool} {p : K[X]} {N : Multiset K[X]} (h : FactOut full p N) (hp : 0 < p.natDegree) : 0 < N.card := by
  rw [Multiset.card_pos]
  rintro rfl
  have := h.prod
  rw [Multiset.prod_zero] at this
  rw [← this] at hp; simp at hp

theorem FactOut.mul {full : Bool} {p q : K[X]} {N N' : Multiset K[X]} (h : FactOut full p N) (h' : FactOut full q N')
    (hp : 0 < p.natDegree) (hq : 0 < q.natDegree) : FactOut full (p * q) (N + N') where
  prod := by rw [Multiset.prod_add, h.prod, h'.prod]
  pos := fun x hx => (Multiset.mem_add.mp hx).elim (h.pos x) (h'.pos x)
  irr := fun hf x hx => (Multiset.mem_add.mp hx).elim (h.irr hf x) (h'.irr hf x)
  one := fun hc => by
    have := h.card_pos hp; have := h'.card_pos hq
    rw [Multiset.card_add] at hc; omega

theorem FactOut.pow {full : Bool} {p : K[X]} {N : Multiset K[X]} (h : FactOut full p N) (k : ℕ) (hk : 2 ≤ k) :
    FactOut full (p ^ k) (k • N) where
  prod := by rw [Multiset.prod_nsmul, h.prod]
  pos := fun x hx => h.pos x (Multiset.mem_of_mem_nsmul hx)
  irr := fun hf x hx => h.irr hf x (Multiset.mem_of_mem_nsmul hx)
  one := fun hc => by
    rw [Multiset.card_nsmul] at hc
    have := Nat.eq_one_of_mul_eq_one_right hc
    omega

theorem FactOut.single {full : Bool} {p : K[X]} (h : Irreducible p) : FactOut full p {p} where
  prod := by simp
  pos := by intro x hx; rw [Multiset.mem_singleton.mp hx]; exact h.natDegree_pos
  irr := by intro _ x hx; rw [Multiset.mem_singleton.mp hx]; exact h
  one := fun _ => h

/-- two non-constant factors which are not known to be irreducible -/
theorem FactOut.pair {p q : K[X]} (hp : 0 < p.natDegree) (hq : 0 < q.natDegree) : FactOut false (p * q) ({p} + {q}) where
  prod := by simp
  pos := by
    intro x hx; rw [Multiset.mem_add, Multiset.mem_singleton, Multiset.mem_singleton] at hx
    rcases hx with rfl | rfl <;> assumption
  irr := fun h => by cases h
  one := fun h => by simp at h

end Spffl
