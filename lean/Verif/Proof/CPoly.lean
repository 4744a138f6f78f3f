/-
Correctness of the generic coefficient-array polynomial model over any coefficient type that refines a
commutative ring.
-/
import Verif.Model.CPoly
import Verif.Base.Sat
import Verif.Base.PolyLemmas
import Mathlib.Algebra.Polynomial.Degree.Operations
import Mathlib.Algebra.Polynomial.Derivative
import Mathlib.Algebra.Polynomial.FieldDivision
import Mathlib.Tactic.LinearCombination

namespace Spffl
open Res Polynomial

/-- The coefficient operations refine the commutative ring `R`: `rep a x` says object `a` denotes `x`.
`ord` is the order implemented by `<` and `>`. -/
structure CoefRef (U : Prop) {α R : Type} [CommRing R] (O : CoefOps α) (rep : α → R → Prop)
    (ord : R → R → Prop) : Prop where
  add : ∀ {a b x y}, rep a x → rep b y → (O.add a b).Sat U (fun r => rep r (x + y))
  sub : ∀ {a b x y}, rep a x → rep b y → (O.sub a b).Sat U (fun r => rep r (x - y))
  mul : ∀ {a b x y}, rep a x → rep b y → (O.mul a b).Sat U (fun r => rep r (x * y))
  neg : ∀ {a x}, rep a x → (O.neg a).Sat U (fun r => rep r (-x))
  div : ∀ {a b x y z}, rep a x → rep b y → y * z = 1 → (O.div a b).Sat U (fun r => rep r (x * z))
  div_throw : ∀ {a b x y}, rep a x → rep b y → ¬ IsUnit y → (O.div a b).Throws U
  eq : ∀ {a b x y}, rep a x → rep b y → (O.eq a b).Sat U (fun r => r = true ↔ x = y)
  lt : ∀ {a b x y}, rep a x → rep b y → (O.lt a b).Sat U (fun r => r = true ↔ ord x y)
  gt : ∀ {a b x y}, rep a x → rep b y → (O.gt a b).Sat U (fun r => r = true ↔ ord y x)
  psub : ∀ {a x} (v : Int), InInt v → rep a x → (O.psub a v).Sat U (fun r => rep r (v : R))
  recip : ∀ {a x}, rep a x → x ≠ 0 → (O.recip a).Sat U (fun r => match r with
    | none => ¬ IsUnit x
    | some i => ∃ y, rep i y ∧ x * y = 1)
  isZero : ∀ {a x}, rep a x → (O.isInt a 0).Sat U (fun r => r = true ↔ x = 0)
  irrefl : ∀ x, ¬ ord x x
  asymm : ∀ x y, ord x y → ¬ ord y x
  total : ∀ x y, x = y ∨ ord x y ∨ ord y x

/-- The part of `CoefRef` needed by the methods that only compare, copy and subtract a coefficient from itself.
It does not ask `rep` to be closed under arithmetic. -/
structure CoefCmp (U : Prop) {α R : Type} [CommRing R] (O : CoefOps α) (rep : α → R → Prop)
    (ord : R → R → Prop) : Prop where
  sub0 : ∀ {a x}, rep a x → (O.sub a a).Sat U (fun r => rep r 0)
  eq : ∀ {a b x y}, rep a x → rep b y → (O.eq a b).Sat U (fun r => r = true ↔ x = y)
  lt : ∀ {a b x y}, rep a x → rep b y → (O.lt a b).Sat U (fun r => r = true ↔ ord x y)
  gt : ∀ {a b x y}, rep a x → rep b y → (O.gt a b).Sat U (fun r => r = true ↔ ord y x)
  psub0 : ∀ {a x}, rep a x → (O.psub a 0).Sat U (fun r => rep r 0)
  irrefl : ∀ x, ¬ ord x x
  asymm : ∀ x y, ord x y → ¬ ord y x
  total : ∀ x y, x = y ∨ ord x y ∨ ord y x

theorem CoefRef.toCmp {U : Prop} {α R : Type} [CommRing R] {O : CoefOps α} {rep : α → R → Prop}
    {ord : R → R → Prop} (H : CoefRef U O rep ord) : CoefCmp U O rep ord where
  sub0 h := (H.sub h h).mono fun _ hr => by rwa [sub_self] at hr
  eq := H.eq
  lt := H.lt
  gt := H.gt
  psub0 h := (H.psub 0 (by decide) h).mono fun _ hr => by rwa [Int.cast_zero] at hr
  irrefl := H.irrefl
  asymm := H.asymm
  total := H.total

namespace CPoly
variable {U : Prop} {α R : Type} [CommRing R] {O : CoefOps α} {rep : α → R → Prop} {ord : R → R → Prop}

/-- the first `n` slots of `cs` hold the first `n` coefficients of `f` -/
def Holds (rep : α → R → Prop) (cs : List α) (n : ℕ) (f : R[X]) : Prop :=
  ∀ i, i < n → At cs i (fun e => rep e (f.coeff i))

/-- `p` denotes `f`: the `degree` member is the true degree and the array holds the coefficients. -/
structure PRep (rep : α → R → Prop) (p : CPoly α) (f : R[X]) : Prop where
  deg : f.natDegree = p.degree
  co : Holds rep p.coeffs (p.degree + 1) f

theorem PRep.len {p : CPoly α} {f : R[X]} (h : PRep rep p f) : p.degree < p.coeffs.length :=
  (h.co _ (Nat.lt_succ_self _)).lt

theorem PRep.c0 {p : CPoly α} {f : R[X]} (h : PRep rep p f) : At p.coeffs 0 (fun e => rep e (f.coeff 0)) :=
  h.co 0 (by omega)

theorem Holds.congr {cs ds : List α} {n : ℕ} {f : R[X]} (h : Holds rep cs n f)
    (he : ∀ i, i < n → ds[i]? = cs[i]?) : Holds rep ds n f :=
  fun i hi => (h i hi).congr (he i hi)

theorem recLoop_cmp (H : CoefCmp U O rep ord) {zero : α} (hz : rep zero 0) {cs : List α} {c : ℕ → R} :
    ∀ n, (∀ i, i < n → At cs i (fun e => rep e (c i))) →
      (recLoop O zero cs n).Sat U (fun d => d ≤ n - 1 ∧ (∀ j, d < j → j < n → c j = 0) ∧ (d = 0 ∨ c d ≠ 0))
  | 0, _ => by unfold recLoop; simp
  | n + 1, h => by
    unfold recLoop
    refine (rd_sat (h n (by omega))).bind fun x hx => ?_
    refine (H.eq hx hz).bind fun b hb => ?_
    cases b with
    | true =>
      rw [if_pos rfl]
      have hc : c n = 0 := hb.mp rfl
      refine (recLoop_cmp H hz n fun i hi => h i (by omega)).mono fun d ⟨h1, h2, h3⟩ => ⟨by omega, fun j hj1 hj2 => ?_, h3⟩
      rcases Nat.lt_or_ge j n with h' | h'
      · exact h2 j hj1 h'
      · rw [show j = n by omega]; exact hc
    | false =>
      rw [if_neg (by simp), Sat_ok]
      refine ⟨by omega, fun j _ _ => by omega, Or.inr fun h => ?_⟩
      simpa using hb.mpr h

theorem recLoop_sat (H : CoefRef U O rep ord) {zero : α} (hz : rep zero 0) {cs : List α} {c : ℕ → R} :
    ∀ n, (∀ i, i < n → At cs i (fun e => rep e (c i))) →
      (recLoop O zero cs n).Sat U (fun d => d ≤ n - 1 ∧ (∀ j, d < j → j < n → c j = 0) ∧ (d = 0 ∨ c d ≠ 0)) := recLoop_cmp H.toCmp hz

theorem natDegree_of {f : R[X]} {n d : ℕ} (hn : f.natDegree < n) (hd : ∀ j, d < j → j < n → f.coeff j = 0)
    (h0 : d = 0 ∨ f.coeff d ≠ 0) : f.natDegree = d := by
  apply le_antisymm
  · rw [natDegree_le_iff_coeff_eq_zero]
    intro j hj
    rcases Nat.lt_or_ge j n with h | h
    · exact hd j hj h
    · exact coeff_eq_zero_of_natDegree_lt (by omega)
  · rcases h0 with h | h
    · omega
    · exact le_natDegree_of_ne_zero h

theorem recompute_cmp (H : CoefCmp U O rep ord) {d : ℕ} {cs : List α} {f : R[X]} (hc : Holds rep cs (d + 1) f)
    (hd : f.natDegree ≤ d) : (recompute_degree O ⟨d, cs⟩).Sat U (fun r => PRep rep r f) := by
  unfold recompute_degree
  refine (rd_sat (hc 0 (by omega))).bind fun c0 h0 => ?_
  refine (H.sub0 h0).bind fun z hz => ?_
  refine (recLoop_cmp H hz (c := f.coeff) (d + 1) hc).bind fun e ⟨h1, h2, h3⟩ => ?_
  rw [Sat_ok]
  have hdeg := natDegree_of (n := d + 1) (by omega) h2 h3
  exact ⟨hdeg, fun i hi => hc i (by simp at hi; omega)⟩

theorem recompute_sat (H : CoefRef U O rep ord) {d : ℕ} {cs : List α} {f : R[X]} (hc : Holds rep cs (d + 1) f)
    (hd : f.natDegree ≤ d) : (recompute_degree O ⟨d, cs⟩).Sat U (fun r => PRep rep r f) :=
  recompute_cmp H.toCmp hc hd

theorem copy_sat {p : CPoly α} {f : R[X]} (hp : PRep rep p f) :
    (copy O p).Sat U (fun r => PRep rep r f ∧ r.degree = p.degree ∧ r.coeffs.length = p.degree + 1) := by
  unfold copy
  refine (fillUp_sat (f := fun i _ => rd p.coeffs i) (P := fun i e => rep e (f.coeff i)) (by omega) (by simp [new])
    fun i s _ hi _ _ _ => rd_sat (hp.co i hi)).bind fun cs hh1 => ?_
  obtain ⟨h1, h2, _⟩ := hh1
  rw [Sat_ok]
  exact ⟨⟨hp.deg, fun i hi => h2 i (by omega) hi⟩, rfl, by simpa [new] using h1⟩

theorem const_cmp (H : CoefCmp U O rep ord) {c : α} {x : R} (hc : rep c x) :
    (const O c).Sat U (fun r => PRep rep r (C x)) := by
  refine recompute_cmp H (fun i hi => ?_) (by simp)
  have : i = 0 := by omega
  subst this; exact ⟨c, rfl, by simpa using hc⟩

theorem const_sat (H : CoefRef U O rep ord) {c : α} {x : R} (hc : rep c x) :
    (const O c).Sat U (fun r => PRep rep r (C x)) :=
  const_cmp H.toCmp hc

theorem linear_cmp (H : CoefCmp U O rep ord) {c1 c0 : α} {x1 x0 : R} (h1 : rep c1 x1) (h0 : rep c0 x0) :
    (linear O c1 c0).Sat U (fun r => PRep rep r (C x1 * X + C x0)) := by
  refine recompute_cmp H (fun i hi => ?_) natDegree_linear_le
  have : i = 0 ∨ i = 1 := by omega
  rcases this with rfl | rfl
  · exact ⟨c0, rfl, by simpa using h0⟩
  · exact ⟨c1, rfl, by simpa [coeff_X_one, coeff_C] using h1⟩

theorem linear_sat (H : CoefRef U O rep ord) {c1 c0 : α} {x1 x0 : R} (h1 : rep c1 x1) (h0 : rep c0 x0) :
    (linear O c1 c0).Sat U (fun r => PRep rep r (C x1 * X + C x0)) :=
  linear_cmp H.toCmp h1 h0

theorem quadratic_sat (H : CoefRef U O rep ord) {c2 c1 c0 : α} {x2 x1 x0 : R} (h2 : rep c2 x2) (h1 : rep c1 x1)
    (h0 : rep c0 x0) : (quadratic O c2 c1 c0).Sat U (fun r => PRep rep r (C x2 * X ^ 2 + C x1 * X + C x0)) := by
  refine recompute_sat H (fun i hi => ?_) natDegree_quadratic_le
  have : i = 0 ∨ i = 1 ∨ i = 2 := by omega
  rcases this with rfl | rfl | rfl
  · exact ⟨c0, rfl, by simpa using h0⟩
  · exact ⟨c1, rfl, by simpa [coeff_X_one, coeff_C, coeff_X_pow] using h1⟩
  · exact ⟨c2, rfl, by simpa [coeff_X, coeff_C, coeff_X_pow] using h2⟩

theorem psub_sat (H : CoefRef U O rep ord) {p : CPoly α} {f : R[X]} (hp : PRep rep p f) {v : Int} (hv : InInt v) :
    (psub O p v).Sat U (fun r => PRep rep r (C (v : R))) := by
  unfold psub
  refine (rd_sat hp.c0).bind fun c hc => ?_
  refine (H.psub v hv hc).bind fun c0 h0 => ?_
  exact const_sat H h0

/-! ### Sums -/

theorem join_holds {cs ds es : List α} {m n : ℕ} {f : R[X]} (hmn : m ≤ n)
    (h1 : ∀ i, 0 ≤ i → i < m → At ds i (fun e => rep e (f.coeff i)))
    (h2 : ∀ i, m ≤ i → i < n → At es i (fun e => rep e (f.coeff i)))
    (h3 : ∀ j, j < m ∨ n ≤ j → es[j]? = ds[j]?) (_ : ds.length = cs.length) : Holds rep es n f := by
  intro i hi
  rcases Nat.lt_or_ge i m with h | h
  · exact (h1 i (by omega) h).congr (h3 i (Or.inl h))
  · exact h2 i h hi

theorem add_sat (H : CoefRef U O rep ord) {a b : CPoly α} {f g : R[X]} (ha : PRep rep a f) (hb : PRep rep b g) :
    (add O a b).Sat U (fun r => PRep rep r (f + g)) := by
  have hd := natDegree_add_le f g
  rw [ha.deg, hb.deg] at hd
  unfold add
  split
  · rename_i h
    refine (fillUp_sat (f := fun i _ => do let x ← rd a.coeffs i; let y ← rd b.coeffs i; O.add x y)
      (P := fun i e => rep e ((f + g).coeff i)) (by omega) (by simp [new]; omega)
      fun i s _ hi _ _ _ => ?_).bind fun cs hh2 => ?_
    · refine (rd_sat (ha.co i hi)).bind fun x hx => (rd_sat (hb.co i (by omega))).bind fun y hy => ?_
      rw [coeff_add]; exact H.add hx hy
    obtain ⟨h1, h2, _⟩ := hh2
    refine (fillUp_sat (f := fun i _ => rd b.coeffs i) (P := fun i e => rep e ((f + g).coeff i)) (by omega)
      (by rw [h1]; simp [new]) fun i s hi1 hi2 _ _ _ => ?_).bind fun ds hh3 => ?_
    · rw [coeff_add, coeff_eq_zero_of_natDegree_lt (p := f) (by rw [ha.deg]; omega), zero_add]
      exact rd_sat (hb.co i hi2)
    obtain ⟨h3, h4, h5⟩ := hh3
    exact recompute_sat H (join_holds (by omega) h2 h4 h5 h1) (by omega)
  · rename_i h
    refine (fillUp_sat (f := fun i _ => do let x ← rd a.coeffs i; let y ← rd b.coeffs i; O.add x y)
      (P := fun i e => rep e ((f + g).coeff i)) (by omega) (by simp [new]; omega)
      fun i s _ hi _ _ _ => ?_).bind fun cs hh4 => ?_
    · refine (rd_sat (ha.co i (by omega))).bind fun x hx => (rd_sat (hb.co i hi)).bind fun y hy => ?_
      rw [coeff_add]; exact H.add hx hy
    obtain ⟨h1, h2, _⟩ := hh4
    refine (fillUp_sat (f := fun i _ => rd a.coeffs i) (P := fun i e => rep e ((f + g).coeff i)) (by omega)
      (by rw [h1]; simp [new]) fun i s hi1 hi2 _ _ _ => ?_).bind fun ds hh5 => ?_
    · rw [coeff_add, coeff_eq_zero_of_natDegree_lt (p := g) (by rw [hb.deg]; omega), add_zero]
      exact rd_sat (ha.co i hi2)
    obtain ⟨h3, h4, h5⟩ := hh5
    exact recompute_sat H (join_holds (by omega) h2 h4 h5 h1) (by omega)

theorem sub_sat (H : CoefRef U O rep ord) {a b : CPoly α} {f g : R[X]} (ha : PRep rep a f) (hb : PRep rep b g) :
    (sub O a b).Sat U (fun r => PRep rep r (f - g)) := by
  have hd := natDegree_sub_le f g
  rw [ha.deg, hb.deg] at hd
  unfold sub
  split
  · rename_i h
    refine (fillUp_sat (f := fun i _ => do let x ← rd a.coeffs i; let y ← rd b.coeffs i; O.sub x y)
      (P := fun i e => rep e ((f - g).coeff i)) (by omega) (by simp [new]; omega)
      fun i s _ hi _ _ _ => ?_).bind fun cs hh6 => ?_
    · refine (rd_sat (ha.co i hi)).bind fun x hx => (rd_sat (hb.co i (by omega))).bind fun y hy => ?_
      rw [coeff_sub]; exact H.sub hx hy
    obtain ⟨h1, h2, _⟩ := hh6
    refine (fillUp_sat (f := fun i _ => do let y ← rd b.coeffs i; O.neg y)
      (P := fun i e => rep e ((f - g).coeff i)) (by omega)
      (by rw [h1]; simp [new]) fun i s hi1 hi2 _ _ _ => ?_).bind fun ds hh7 => ?_
    · rw [coeff_sub, coeff_eq_zero_of_natDegree_lt (p := f) (by rw [ha.deg]; omega), zero_sub]
      exact (rd_sat (hb.co i hi2)).bind fun y hy => H.neg hy
    obtain ⟨h3, h4, h5⟩ := hh7
    exact recompute_sat H (join_holds (by omega) h2 h4 h5 h1) (by omega)
  · rename_i h
    refine (fillUp_sat (f := fun i _ => do let x ← rd a.coeffs i; let y ← rd b.coeffs i; O.sub x y)
      (P := fun i e => rep e ((f - g).coeff i)) (by omega) (by simp [new]; omega)
      fun i s _ hi _ _ _ => ?_).bind fun cs hh8 => ?_
    · refine (rd_sat (ha.co i (by omega))).bind fun x hx => (rd_sat (hb.co i hi)).bind fun y hy => ?_
      rw [coeff_sub]; exact H.sub hx hy
    obtain ⟨h1, h2, _⟩ := hh8
    refine (fillUp_sat (f := fun i _ => rd a.coeffs i) (P := fun i e => rep e ((f - g).coeff i)) (by omega)
      (by rw [h1]; simp [new]) fun i s hi1 hi2 _ _ _ => ?_).bind fun ds hh9 => ?_
    · rw [coeff_sub, coeff_eq_zero_of_natDegree_lt (p := g) (by rw [hb.deg]; omega), sub_zero]
      exact rd_sat (ha.co i hi2)
    obtain ⟨h3, h4, h5⟩ := hh9
    exact recompute_sat H (join_holds (by omega) h2 h4 h5 h1) (by omega)

/-- unary minus is right for constants ... -/
theorem neg_const_sat (H : CoefRef U O rep ord) {a : CPoly α} {f : R[X]} (ha : PRep rep a f) (h0 : a.degree = 0) :
    (neg O a).Sat U (fun r => PRep rep r (-f)) := by
  unfold neg
  rw [h0]
  refine (fillUp_sat (f := fun i _ => do let x ← rd a.coeffs i; O.neg x) (P := fun i e => rep e ((-f).coeff i))
    (by omega) (by simp [new]) fun i s _ hi _ _ _ => ?_).bind fun cs hh10 => ?_
  · rw [coeff_neg]
    exact (rd_sat (ha.co i (by omega))).bind fun y hy => H.neg hy
  · obtain ⟨h1, h2, _⟩ := hh10
    rw [Sat_ok]
    exact ⟨by rw [natDegree_neg, ha.deg, h0], fun i hi => h2 i (by omega) hi⟩

/-- ... and writes out of bounds for every polynomial of positive degree. -/
theorem neg_ub (H : CoefRef False O rep ord) {a : CPoly α} {f : R[X]} (ha : PRep rep a f) (h0 : 0 < a.degree) :
    neg O a = ub := by
  obtain ⟨n, hn⟩ : ∃ n, a.degree + 1 - 0 = n + 2 := ⟨a.degree - 1, by omega⟩
  obtain ⟨e0, he0, hr0⟩ := (ha.co 0 (by omega)).rd
  obtain ⟨v0, hv0, hr0'⟩ := sat_false.mp (H.neg hr0)
  obtain ⟨e1, he1, hr1⟩ := (ha.co 1 (by omega)).rd
  obtain ⟨v1, hv1, hr1'⟩ := sat_false.mp (H.neg hr1)
  unfold neg forUp
  rw [hn, loopUp]
  simp only [new, store, he0, ok_bind, hv0]
  rw [wr_ok (by simp), ok_bind, loopUp]
  simp only [store, zero_add, he1, ok_bind, hv1]
  simp [wr]

/-! ### Products -/

theorem mulAcc_sat (H : CoefRef U O rep ord) {a b cs : List α} {n i j : ℕ} {x y : R} {F : R[X]}
    (hx : At a i (fun e => rep e x)) (hy : At b j (fun e => rep e y)) (hcs : Holds rep cs n F) (hn : i + j < n) :
    (mulAcc O a b i j cs).Sat U (fun r => Holds rep r n (F + C (x * y) * X ^ (i + j))) := by
  unfold mulAcc
  refine (rd_sat hx).bind fun u hu => (rd_sat hy).bind fun v hv => (H.mul hu hv).bind fun p hp => ?_
  refine (rd_sat (hcs _ hn)).bind fun c hc => (H.add hc hp).bind fun s hs => ?_
  rw [wr_ok (hcs _ hn).lt, Sat_ok]
  intro k hk
  rw [coeff_add, coeff_C_mul, coeff_X_pow]
  by_cases h : k = i + j
  · subst h; exact at_set_self (hcs _ hn).lt (by simpa using hs)
  · rw [if_neg h, mul_zero, add_zero]
    exact (hcs k hk).congr (List.getElem?_set_ne (Ne.symm h))

/-- partial sum of the first `i` terms -/
noncomputable def lowp (p : R[X]) (i : ℕ) : R[X] := ∑ t ∈ Finset.range i, C (p.coeff t) * X ^ t

theorem lowp_succ (p : R[X]) (i : ℕ) : lowp p (i + 1) = lowp p i + C (p.coeff i) * X ^ i := by
  unfold lowp; rw [Finset.sum_range_succ]

theorem lowp_zero (p : R[X]) : lowp p 0 = 0 := by simp [lowp]

theorem lowp_all {p : R[X]} {d : ℕ} (h : p.natDegree = d) : lowp p (d + 1) = p := by
  subst h; exact p.as_sum_range_C_mul_X_pow.symm

theorem mul_sat (H : CoefRef U O rep ord) {a b : CPoly α} {f g : R[X]} (ha : PRep rep a f) (hb : PRep rep b g) :
    (mul O a b).Sat U (fun r => PRep rep r (f * g)) := by
  unfold mul
  refine (rd_sat ha.c0).bind fun c0 h0 => (H.sub h0 h0).bind fun z hz => ?_
  rw [sub_self] at hz
  refine (fillUp_sat (f := fun _ _ => ok z) (P := fun i e => rep e ((0 : R[X]).coeff i)) (by omega) (by simp [new])
    fun i s _ hi _ _ _ => by simpa using hz).bind fun cs hh11 => ?_
  obtain ⟨h1, h2, _⟩ := hh11
  refine (forUp_sat (fun i (s : List α) => Holds rep s (a.degree + b.degree + 1) (lowp f i * g)) (by omega)
    (by rw [lowp_zero, zero_mul]; exact fun i hi => h2 i (by omega) hi) fun i s _ hi hs => ?_).bind fun cs hcs => ?_
  · refine (forUp_sat (fun j (s : List α) => Holds rep s (a.degree + b.degree + 1)
      (lowp f i * g + C (f.coeff i) * X ^ i * lowp g j)) (by omega)
      (by rw [lowp_zero, mul_zero, add_zero]; exact hs) fun j s _ hj hs => ?_).mono fun s hs => ?_
    · refine (mulAcc_sat H (ha.co i hi) (hb.co j hj) hs (by omega)).mono fun s hs => ?_
      rw [lowp_succ]
      have : lowp f i * g + C (f.coeff i) * X ^ i * (lowp g j + C (g.coeff j) * X ^ j) =
        lowp f i * g + C (f.coeff i) * X ^ i * lowp g j + C (f.coeff i * g.coeff j) * X ^ (i + j) := by
        rw [C_mul, pow_add]; ring
      rwa [this]
    · rw [lowp_all hb.deg] at hs
      rw [lowp_succ, add_mul]; exact hs
  · rw [lowp_all ha.deg] at hcs
    refine recompute_sat H hcs ?_
    have := natDegree_mul_le (p := f) (q := g)
    rw [ha.deg, hb.deg] at this; exact this

theorem addConst_sat (H : CoefRef U O rep ord) {p : CPoly α} {f : R[X]} (hp : PRep rep p f) {c : α} {x : R}
    (hc : rep c x) : (addConst O p c).Sat U (fun r => PRep rep r (f + C x)) := by
  unfold addConst
  refine (copy_sat hp).bind fun q ⟨hq, hqd, hql⟩ => (rd_sat hq.c0).bind fun e he => (H.add he hc).bind fun s hs => ?_
  rw [wr_ok hq.c0.lt, ok_bind]
  refine recompute_sat H (fun i hi => ?_) ?_
  · rw [coeff_add, coeff_C]
    by_cases h : i = 0
    · subst h; exact at_set_self hq.c0.lt (by simpa using hs)
    · rw [if_neg h, add_zero]; exact (hq.co i hi).congr (List.getElem?_set_ne (Ne.symm h))
  · have := natDegree_add_le f (C x); rw [natDegree_C, hq.deg] at this; simpa using this

theorem subConst_sat (H : CoefRef U O rep ord) {p : CPoly α} {f : R[X]} (hp : PRep rep p f) {c : α} {x : R}
    (hc : rep c x) : (subConst O p c).Sat U (fun r => PRep rep r (f - C x)) := by
  unfold subConst
  refine (copy_sat hp).bind fun q ⟨hq, hqd, hql⟩ => (rd_sat hq.c0).bind fun e he => (H.sub he hc).bind fun s hs => ?_
  rw [wr_ok hq.c0.lt, ok_bind]
  refine recompute_sat H (fun i hi => ?_) ?_
  · rw [coeff_sub, coeff_C]
    by_cases h : i = 0
    · subst h; exact at_set_self hq.c0.lt (by simpa using hs)
    · rw [if_neg h, sub_zero]; exact (hq.co i hi).congr (List.getElem?_set_ne (Ne.symm h))
  · have := natDegree_sub_le f (C x); rw [natDegree_C, hq.deg] at this; simpa using this

theorem smul_cmp (H : CoefCmp U O rep ord) {p : CPoly α} {f : R[X]} (hp : PRep rep p f) {c : α} {x : R}
    (hm : ∀ i, i ≤ p.degree → ∀ y, rep y (f.coeff i) → (O.mul y c).Sat U (fun r => rep r (f.coeff i * x))) :
    (smul O p c).Sat U (fun r => PRep rep r (f * C x)) := by
  unfold smul
  refine (copy_sat hp).bind fun q ⟨hq, hqd, hql⟩ => ?_
  refine (fillUp_sat (f := fun i cs => do let x ← rd cs i; O.mul x c) (P := fun i e => rep e ((f * C x).coeff i))
    (by omega) (by omega) fun i s _ hi _ hs _ => ?_).bind fun cs hh12 => ?_
  · refine (rd_sat ((hq.co i hi).congr (hs i (Or.inr le_rfl)))).bind fun y hy => ?_
    rw [coeff_mul_C]; exact hm i (by omega) y hy
  · obtain ⟨h1, h2, _⟩ := hh12
    refine recompute_cmp H (fun i hi => h2 i (by omega) hi) ?_
    have := natDegree_mul_C_le f x; rw [hq.deg] at this; exact this

theorem smul_sat (H : CoefRef U O rep ord) {p : CPoly α} {f : R[X]} (hp : PRep rep p f) {c : α} {x : R}
    (hc : rep c x) : (smul O p c).Sat U (fun r => PRep rep r (f * C x)) :=
  smul_cmp H.toCmp hp fun _ _ _ hy => H.mul hy hc

theorem sdiv_sat (H : CoefRef U O rep ord) {p : CPoly α} {f : R[X]} (hp : PRep rep p f) {c : α} {x z : R}
    (hc : rep c x) (hz : x * z = 1) : (sdiv O p c).Sat U (fun r => PRep rep r (f * C z)) := by
  unfold sdiv
  refine (copy_sat hp).bind fun q ⟨hq, hqd, hql⟩ => ?_
  refine (fillUp_sat (f := fun i cs => do let x ← rd cs i; O.div x c) (P := fun i e => rep e ((f * C z).coeff i))
    (by omega) (by omega) fun i s _ hi _ hs _ => ?_).bind fun cs hh13 => ?_
  · refine (rd_sat ((hq.co i hi).congr (hs i (Or.inr le_rfl)))).bind fun y hy => ?_
    rw [coeff_mul_C]; exact H.div hy hc hz
  · obtain ⟨h1, h2, _⟩ := hh13
    refine recompute_sat H (fun i hi => h2 i (by omega) hi) ?_
    have := natDegree_mul_C_le f z; rw [hq.deg] at this; exact this

/-! ### Comparison -/

/-- first difference from the top decides -/
def lexLt (ord : R → R → Prop) (f g : R[X]) (n : ℕ) : Prop :=
  ∃ i, i < n ∧ ord (f.coeff i) (g.coeff i) ∧ ∀ j, i < j → j < n → f.coeff j = g.coeff j

theorem cmpLoop_cmp (H : CoefCmp U O rep ord) {a b : List α} {f g : R[X]} : ∀ n, Holds rep a n f → Holds rep b n g →
    (cmpLoop O a b n).Sat U (fun d => (d = 0 ∧ ∀ i, i < n → f.coeff i = g.coeff i) ∨
      (d = -1 ∧ lexLt ord f g n) ∨ (d = 1 ∧ lexLt ord g f n))
  | 0, _, _ => by unfold cmpLoop; simp
  | n + 1, ha, hb => by
    unfold cmpLoop
    refine (rd_sat (ha n (by omega))).bind fun x hx => (rd_sat (hb n (by omega))).bind fun y hy => ?_
    refine (H.lt hx hy).bind fun l hl => ?_
    cases l with
    | true =>
      rw [if_pos rfl, Sat_ok]
      exact Or.inr (Or.inl ⟨rfl, n, by omega, hl.mp rfl, fun j _ _ => by omega⟩)
    | false =>
      rw [if_neg (by simp)]
      refine (H.gt hx hy).bind fun l' hl' => ?_
      cases l' with
      | true =>
        rw [if_pos rfl, Sat_ok]
        exact Or.inr (Or.inr ⟨rfl, n, by omega, hl'.mp rfl, fun j _ _ => by omega⟩)
      | false =>
        rw [if_neg (by simp)]
        have he : f.coeff n = g.coeff n := by
          rcases H.total (f.coeff n) (g.coeff n) with h | h | h
          · exact h
          · simpa using hl.mpr h
          · simpa using hl'.mpr h
        have ext : ∀ {f g : R[X]}, f.coeff n = g.coeff n → lexLt ord f g n → lexLt ord f g (n + 1) := by
          rintro f g e ⟨i, h1, h2, h3⟩
          refine ⟨i, by omega, h2, fun j hj1 hj2 => ?_⟩
          rcases Nat.lt_or_ge j n with h | h
          · exact h3 j hj1 h
          · rw [show j = n by omega, e]
        refine (cmpLoop_cmp H n (fun i hi => ha i (by omega)) (fun i hi => hb i (by omega))).mono fun d hd => ?_
        rcases hd with ⟨h1, h2⟩ | ⟨h1, h2⟩ | ⟨h1, h2⟩
        · refine Or.inl ⟨h1, fun i hi => ?_⟩
          rcases Nat.lt_or_ge i n with h | h
          · exact h2 i h
          · rw [show i = n by omega, he]
        · exact Or.inr (Or.inl ⟨h1, ext he h2⟩)
        · exact Or.inr (Or.inr ⟨h1, ext he.symm h2⟩)

theorem cmpLoop_sat (H : CoefRef U O rep ord) {a b : List α} {f g : R[X]} : ∀ n, Holds rep a n f → Holds rep b n g →
    (cmpLoop O a b n).Sat U (fun d => (d = 0 ∧ ∀ i, i < n → f.coeff i = g.coeff i) ∨
      (d = -1 ∧ lexLt ord f g n) ∨ (d = 1 ∧ lexLt ord g f n)) := cmpLoop_cmp H.toCmp

/-- the order implemented by `<`: by degree, then lexicographically from the leading coefficient -/
def polyLt (ord : R → R → Prop) (f g : R[X]) : Prop :=
  f.natDegree < g.natDegree ∨ (f.natDegree = g.natDegree ∧ lexLt ord f g (f.natDegree + 1))

theorem ext_of_coeff_le {f g : R[X]} {d : ℕ} (hf : f.natDegree ≤ d) (hg : g.natDegree ≤ d)
    (h : ∀ i, i < d + 1 → f.coeff i = g.coeff i) : f = g := by
  ext i
  rcases Nat.lt_or_ge i (d + 1) with hi | hi
  · exact h i hi
  · rw [coeff_eq_zero_of_natDegree_lt (by omega), coeff_eq_zero_of_natDegree_lt (by omega)]

theorem cmp_cmp (H : CoefCmp U O rep ord) {a b : CPoly α} {f g : R[X]} (ha : PRep rep a f) (hb : PRep rep b g) :
    (cmp O a b).Sat U (fun d => (d = 0 ∧ f = g) ∨ (d = -1 ∧ polyLt ord f g) ∨ (d = 1 ∧ polyLt ord g f)) := by
  unfold cmp
  split
  · rename_i h
    exact Or.inr (Or.inl ⟨rfl, Or.inl (by rw [ha.deg, hb.deg]; exact h)⟩)
  · split
    · rename_i h
      exact Or.inr (Or.inr ⟨rfl, Or.inl (by rw [ha.deg, hb.deg]; exact h)⟩)
    · rename_i h1 h2
      have e : a.degree = b.degree := by omega
      have e' : f.natDegree = g.natDegree := by rw [ha.deg, hb.deg, e]
      refine (cmpLoop_cmp H _ ha.co (by rw [e]; exact hb.co)).mono fun d hd => ?_
      rcases hd with ⟨h1, h2⟩ | ⟨h1, h2⟩ | ⟨h1, h2⟩
      · exact Or.inl ⟨h1, ext_of_coeff_le ha.deg.le (by rw [← e', ha.deg]) h2⟩
      · exact Or.inr (Or.inl ⟨h1, Or.inr ⟨e', by rw [ha.deg]; exact h2⟩⟩)
      · exact Or.inr (Or.inr ⟨h1, Or.inr ⟨e'.symm, by rw [← e', ha.deg]; exact h2⟩⟩)

theorem cmp_sat (H : CoefRef U O rep ord) {a b : CPoly α} {f g : R[X]} (ha : PRep rep a f) (hb : PRep rep b g) :
    (cmp O a b).Sat U (fun d => (d = 0 ∧ f = g) ∨ (d = -1 ∧ polyLt ord f g) ∨ (d = 1 ∧ polyLt ord g f)) :=
  cmp_cmp H.toCmp ha hb

theorem polyLt_asymm_cmp (H : CoefCmp U O rep ord) {f g : R[X]} (h : polyLt ord f g) : ¬ polyLt ord g f := by
  rintro h'
  rcases h with h | ⟨h1, i, hi, h2, h3⟩
  · rcases h' with h' | ⟨h', _⟩ <;> omega
  · rcases h' with h' | ⟨h1', i', hi', h2', h3'⟩
    · omega
    · rw [← h1] at hi' h3'
      rcases Nat.lt_trichotomy i i' with e | e | e
      · have := h3 i' e hi'; rw [this] at h2'; exact H.irrefl _ h2'
      · subst e; exact H.asymm _ _ h2 h2'
      · have := h3' i e hi; rw [this] at h2; exact H.irrefl _ h2

theorem polyLt_asymm (H : CoefRef U O rep ord) {f g : R[X]} (h : polyLt ord f g) : ¬ polyLt ord g f :=
  polyLt_asymm_cmp H.toCmp h

theorem polyLt_irrefl_cmp (H : CoefCmp U O rep ord) (f : R[X]) : ¬ polyLt ord f f :=
  fun h => polyLt_asymm_cmp H h h

theorem polyLt_irrefl (H : CoefRef U O rep ord) (f : R[X]) : ¬ polyLt ord f f := polyLt_irrefl_cmp H.toCmp f

theorem eq_cmp (H : CoefCmp U O rep ord) {a b : CPoly α} {f g : R[X]} (ha : PRep rep a f) (hb : PRep rep b g) :
    (eq O a b).Sat U (fun r => r = true ↔ f = g) := by
  unfold eq
  refine (cmp_cmp H ha hb).bind fun d hd => ?_
  rw [Sat_ok, beq_iff_eq]
  rcases hd with ⟨h1, h2⟩ | ⟨h1, h2⟩ | ⟨h1, h2⟩
  · simp [h1, h2]
  · rw [h1]
    refine ⟨by omega, ?_⟩
    rintro rfl; exact absurd h2 (polyLt_irrefl_cmp H f)
  · rw [h1]
    refine ⟨by omega, ?_⟩
    rintro rfl; exact absurd h2 (polyLt_irrefl_cmp H f)

theorem eq_sat (H : CoefRef U O rep ord) {a b : CPoly α} {f g : R[X]} (ha : PRep rep a f) (hb : PRep rep b g) :
    (eq O a b).Sat U (fun r => r = true ↔ f = g) :=
  eq_cmp H.toCmp ha hb

theorem lt_sat (H : CoefRef U O rep ord) {a b : CPoly α} {f g : R[X]} (ha : PRep rep a f) (hb : PRep rep b g) :
    (lt O a b).Sat U (fun r => r = true ↔ polyLt ord f g) := by
  unfold lt
  refine (cmp_sat H ha hb).bind fun d hd => ?_
  rw [Sat_ok, decide_eq_true_iff]
  rcases hd with ⟨h1, h2⟩ | ⟨h1, h2⟩ | ⟨h1, h2⟩
  · rw [h1, h2]
    exact ⟨by omega, fun h => absurd h (polyLt_irrefl H g)⟩
  · simp [h1, h2]
  · rw [h1]
    exact ⟨by omega, fun h => absurd h2 (polyLt_asymm H h)⟩

theorem gt_sat (H : CoefRef U O rep ord) {a b : CPoly α} {f g : R[X]} (ha : PRep rep a f) (hb : PRep rep b g) :
    (gt O a b).Sat U (fun r => r = true ↔ polyLt ord g f) := by
  unfold gt
  refine (cmp_sat H ha hb).bind fun d hd => ?_
  rw [Sat_ok, decide_eq_true_iff]
  rcases hd with ⟨h1, h2⟩ | ⟨h1, h2⟩ | ⟨h1, h2⟩
  · rw [h1, h2]
    exact ⟨by omega, fun h => absurd h (polyLt_irrefl H g)⟩
  · rw [h1]
    exact ⟨by omega, fun h => absurd h2 (polyLt_asymm H h)⟩
  · simp [h1, h2]

theorem polyLt_total (H : CoefRef U O rep ord) (f g : R[X]) : f = g ∨ polyLt ord f g ∨ polyLt ord g f := by
  classical
  by_cases hfg : f = g
  · exact Or.inl hfg
  rcases Nat.lt_trichotomy f.natDegree g.natDegree with h | h | h
  · exact Or.inr (Or.inl (Or.inl h))
  · have hne : ∃ i, i < f.natDegree + 1 ∧ f.coeff i ≠ g.coeff i := by
      by_contra hc
      push Not at hc
      exact hfg (ext_of_coeff_le le_rfl h.ge hc)
    have hP : ∃ i, i ≤ f.natDegree ∧ f.coeff (f.natDegree - i) ≠ g.coeff (f.natDegree - i) := by
      obtain ⟨i, h1, h2⟩ := hne
      exact ⟨f.natDegree - i, by omega, by rwa [show f.natDegree - (f.natDegree - i) = i by omega]⟩
    obtain ⟨h1, h2⟩ := Nat.find_spec hP
    have h3 : ∀ j, f.natDegree - Nat.find hP < j → j < f.natDegree + 1 → f.coeff j = g.coeff j := by
      intro j hj1 hj2
      by_contra hc
      have := Nat.find_min hP (m := f.natDegree - j) (by omega)
      exact this ⟨by omega, by rwa [show f.natDegree - (f.natDegree - j) = j by omega]⟩
    rcases H.total (f.coeff (f.natDegree - Nat.find hP)) (g.coeff (f.natDegree - Nat.find hP)) with e | e | e
    · exact absurd e h2
    · exact Or.inr (Or.inl (Or.inr ⟨h, _, by omega, e, h3⟩))
    · refine Or.inr (Or.inr (Or.inr ⟨h.symm, f.natDegree - Nat.find hP, by omega, e, fun j hj1 hj2 => ?_⟩))
      exact (h3 j hj1 (by omega)).symm
  · exact Or.inr (Or.inr (Or.inl h))

theorem eqInt_sat (H : CoefRef U O rep ord) {a : CPoly α} {f : R[X]} (ha : PRep rep a f) :
    (eqInt O a 0).Sat U (fun r => r = true ↔ f = 0) := by
  unfold eqInt
  split
  · rename_i h
    rw [Sat_ok]
    refine ⟨by simp, ?_⟩
    rintro rfl
    have := ha.deg; simp at this; omega
  · rename_i h
    refine (rd_sat ha.c0).bind fun c hc => (H.isZero hc).mono fun r hr => hr.trans ?_
    have hd : f.natDegree = 0 := by rw [ha.deg]; omega
    conv_rhs => rw [eq_C_of_natDegree_eq_zero hd]
    simp

theorem eqConst_cmp (H : CoefCmp U O rep ord) {a : CPoly α} {f : R[X]} (ha : PRep rep a f) {z : α} (hz : rep z 0) :
    (eqConst O a z).Sat U (fun r => r = true ↔ f = 0) := by
  unfold eqConst
  refine (const_cmp H hz).bind fun c hc => ?_
  rw [C_0] at hc
  exact eq_cmp H ha hc

theorem eqConst_sat (H : CoefRef U O rep ord) {a : CPoly α} {f : R[X]} (ha : PRep rep a f) {z : α} (hz : rep z 0) :
    (eqConst O a z).Sat U (fun r => r = true ↔ f = 0) :=
  eqConst_cmp H.toCmp ha hz

/-! ### Euclidean division -/

theorem subShift_cmp {d : CPoly α} {g F : R[X]} {rem : List α} {n shift : ℕ}
    (hd : PRep rep d g) (hr : Holds rep rem n F) (hl : rem.length = n) (hn : shift + d.degree < n)
    (hsub : ∀ i, i ≤ d.degree → ∀ x y, rep x (F.coeff (shift + i)) → rep y (g.coeff i) →
      (O.sub x y).Sat U (fun r => rep r (F.coeff (shift + i) - g.coeff i))) :
    (subShift O d shift rem).Sat U (fun r => r.length = n ∧ Holds rep r n (F - X ^ shift * g)) := by
  have hco : ∀ i, (F - X ^ shift * g).coeff i = F.coeff i - if shift ≤ i then g.coeff (i - shift) else 0 := by
    intro i; rw [coeff_sub, coeff_X_pow_mul']
  unfold subShift
  refine (fillUp_sat (f := fun i rem => do let x ← rd rem i; let y ← rd d.coeffs (i - shift); O.sub x y)
    (P := fun i e => rep e ((F - X ^ shift * g).coeff i)) (by omega) (by omega)
    fun i s hi1 hi2 _ hs _ => ?_).mono fun r hh14 => ?_
  · refine (rd_sat ((hr i (by omega)).congr (hs i (Or.inr le_rfl)))).bind fun x hx => ?_
    refine (rd_sat (hd.co (i - shift) (by omega))).bind fun y hy => ?_
    rw [hco, if_pos hi1]; 
    have := hsub (i - shift) (by omega) x y (by rwa [show shift + (i - shift) = i by omega]) hy
    rwa [show shift + (i - shift) = i by omega] at this
  · obtain ⟨h1, h2, h3⟩ := hh14
    refine ⟨by omega, fun i hi => ?_⟩
    by_cases hc : shift ≤ i ∧ i < shift + d.degree + 1
    · exact h2 i hc.1 hc.2
    · have : (F - X ^ shift * g).coeff i = F.coeff i := by
        rw [hco]
        split
        · rw [coeff_eq_zero_of_natDegree_lt (p := g) (by rw [hd.deg]; omega), sub_zero]
        · rw [sub_zero]
      rw [this]
      exact (hr i hi).congr (h3 i (by omega))

theorem subShift_sat (H : CoefRef U O rep ord) {d : CPoly α} {g F : R[X]} {rem : List α} {n shift : ℕ}
    (hd : PRep rep d g) (hr : Holds rep rem n F) (hl : rem.length = n) (hn : shift + d.degree < n) :
    (subShift O d shift rem).Sat U (fun r => r.length = n ∧ Holds rep r n (F - X ^ shift * g)) :=
  subShift_cmp hd hr hl hn fun _ _ _ _ hx hy => H.sub hx hy

/-- state after the rounds for all shifts `≥ k` -/
def DivInv (rep : α → R → Prop) (f g : R[X]) (da db : ℕ) (k : ℕ) (s : List α × List α) : Prop :=
  ∃ Q F : R[X], s.1.length = da - db + 1 ∧ s.2.length = da + 1 ∧
    (∀ i, k ≤ i → i < da - db + 1 → At s.1 i (fun e => rep e (Q.coeff i))) ∧
    (∀ i, i < k ∨ da - db < i → Q.coeff i = 0) ∧
    Holds rep s.2 (da + 1) F ∧ f = Q * g + F ∧ ∀ i, k + db ≤ i → F.coeff i = 0

/-- the coefficient operations of one round of long division are carried out -/
structure OpsOk (U : Prop) (O : CoefOps α) (rep : α → R → Prop) (g : R[X]) (db : ℕ) (dlinv : α) (u : R) (k : ℕ)
    (F : R[X]) : Prop where
  lead : ∀ a, rep a (F.coeff (k + db)) → (O.mul a dlinv).Sat U (fun r => rep r (F.coeff (k + db) * u))
  scale : ∀ m, rep m (F.coeff (k + db) * u) → ∀ i, i ≤ db → ∀ y, rep y (g.coeff i) →
    (O.mul y m).Sat U (fun r => rep r (g.coeff i * (F.coeff (k + db) * u)))
  sub : ∀ i, i ≤ db → ∀ x y, rep x (F.coeff (k + i)) → rep y (g.coeff i * (F.coeff (k + db) * u)) →
    (O.sub x y).Sat U (fun r => rep r (F.coeff (k + i) - g.coeff i * (F.coeff (k + db) * u)))

theorem divStep_cmp (H : CoefCmp U O rep ord) {b : CPoly α} {f g : R[X]} {da : ℕ} (hb : PRep rep b g)
    (hle : b.degree ≤ da) {dlinv : α} {u : R} (hgu : g.leadingCoeff * u = 1) {k : ℕ}
    (hk : k < da - b.degree + 1) {s : List α × List α} (hs : DivInv rep f g da b.degree (k + 1) s)
    (hops : ∀ Q F, f = Q * g + F → (∀ i, i < k + 1 ∨ da - b.degree < i → Q.coeff i = 0) →
      (∀ i, k + 1 + b.degree ≤ i → F.coeff i = 0) → OpsOk U O rep g b.degree dlinv u k F) :
    (divStep O b dlinv k s).Sat U (DivInv rep f g da b.degree k) := by
  obtain ⟨Q, F, l1, l2, hq, hq0, hF, hf, hF0⟩ := hs
  have ho := hops Q F hf hq0 hF0
  unfold divStep
  refine (rd_sat (hF (k + b.degree) (by omega))).bind fun rl hrl => (ho.lead rl hrl).bind fun m hm => ?_
  refine (smul_cmp H hb (ho.scale m hm)).bind fun dm hdm => ?_
  rw [wr_ok (by omega), ok_bind]
  have hdd : dm.degree ≤ b.degree := by
    rw [← hdm.deg, ← hb.deg]; exact natDegree_mul_C_le _ _
  refine (subShift_cmp hdm hF l2 (by omega) fun i hi x y hx hy => by
    rw [coeff_mul_C] at hy ⊢; exact ho.sub i (by omega) x y hx hy).bind fun r ⟨hr1, hr2⟩ => ?_
  rw [Sat_ok]
  set c := F.coeff (k + b.degree) * u with hc
  refine ⟨Q + C c * X ^ k, F - X ^ k * (g * C c), by simpa using l1, hr1, fun i hi1 hi2 => ?_, fun i hi => ?_, hr2,
    by rw [hf]; ring, fun i hi => ?_⟩
  · rw [coeff_add, coeff_C_mul, coeff_X_pow]
    by_cases e : i = k
    · subst e
      exact at_set_self (by omega) (by simpa [hq0 i (Or.inl (Nat.lt_succ_self i))] using hm)
    · rw [if_neg e, mul_zero, add_zero]
      exact (hq i (by omega) hi2).congr (List.getElem?_set_ne (Ne.symm e))
  · rw [coeff_add, coeff_C_mul, coeff_X_pow, if_neg (by omega), mul_zero, add_zero]
    exact hq0 i (by omega)
  · rw [coeff_sub, coeff_X_pow_mul', if_pos (by omega), coeff_mul_C]
    by_cases e : i = k + b.degree
    · subst e
      have hgl : g.coeff b.degree = g.leadingCoeff := by rw [← hb.deg]; rfl
      rw [show k + b.degree - k = b.degree by omega, hgl]
      linear_combination (-F.coeff (k + b.degree)) * hgu
    · rw [coeff_eq_zero_of_natDegree_lt (p := g) (by rw [hb.deg]; omega), zero_mul, sub_zero]
      exact hF0 i (by omega)

theorem divStep_sat (H : CoefRef U O rep ord) {b : CPoly α} {f g : R[X]} {da : ℕ} (hb : PRep rep b g)
    (hle : b.degree ≤ da) {dlinv : α} {u : R} (hu : rep dlinv u) (hgu : g.leadingCoeff * u = 1) {k : ℕ}
    (hk : k < da - b.degree + 1) {s : List α × List α} (hs : DivInv rep f g da b.degree (k + 1) s) :
    (divStep O b dlinv k s).Sat U (DivInv rep f g da b.degree k) :=
  divStep_cmp H.toCmp hb hle hgu hk hs fun _ _ _ _ _ =>
    ⟨fun _ ha => H.mul ha hu, fun _ hm _ _ _ hy => H.mul hy hm, fun _ _ _ _ hx hy => H.sub hx hy⟩

theorem degree_lt_of_coeff {F g : R[X]} (hg : g ≠ 0) (h : ∀ i, g.natDegree ≤ i → F.coeff i = 0) :
    F.degree < g.degree := by
  rw [degree_eq_natDegree hg, degree_lt_iff_coeff_zero]; exact h

theorem longDiv_cmp (H : CoefCmp U O rep ord) {a b : CPoly α} {f g : R[X]} (ha : PRep rep a f) (hb : PRep rep b g)
    (hf : f ≠ 0) (hg : g ≠ 0) (hle : b.degree ≤ a.degree) (hu : IsUnit g.leadingCoeff) {zero : α} (hz : rep zero 0)
    (hrec : ∀ l, rep l g.leadingCoeff → (O.recip l).Sat U (fun r => match r with
      | none => ¬ IsUnit g.leadingCoeff
      | some i => ∃ y, rep i y ∧ g.leadingCoeff * y = 1))
    (hops : ∀ dlinv u, rep dlinv u → g.leadingCoeff * u = 1 → ∀ k, k < a.degree - b.degree + 1 → ∀ Q F,
      f = Q * g + F → (∀ i, i < k + 1 ∨ a.degree - b.degree < i → Q.coeff i = 0) →
      (∀ i, k + 1 + b.degree ≤ i → F.coeff i = 0) → OpsOk U O rep g b.degree dlinv u k F) :
    (longDiv O zero a b).Sat U (fun s => ∃ q r, PRep rep s.1 q ∧ PRep rep s.2 r ∧ f = q * g + r ∧
      r.degree < g.degree) := by
  have hgl : g.coeff b.degree = g.leadingCoeff := by rw [← hb.deg]; rfl
  unfold longDiv
  refine (copy_sat ha).bind fun rem ⟨hrem, hrd, hrl⟩ => ?_
  refine (rd_sat (hb.co _ (Nat.lt_succ_self _))).bind fun lead hlead => ?_
  rw [hgl] at hlead
  refine (hrec lead hlead).bind fun o ho => ?_
  cases o with
  | none => exact absurd hu ho
  | some i =>
    obtain ⟨u, hu1, hu2⟩ := ho
    refine (forDown_sat (DivInv rep f g a.degree b.degree) (by omega)
      ⟨0, f, by simp [new], hrl, fun i h1 h2 => by omega, by simp, ?_, by simp, fun i hi => ?_⟩
      fun k s _ hk hs => divStep_cmp H hb hle hu2 hk hs (hops i u hu1 hu2 k hk)).bind fun s hs => ?_
    · have := hrem.co; rwa [hrd] at this
    · exact coeff_eq_zero_of_natDegree_lt (by rw [ha.deg]; omega)
    obtain ⟨Q, F, l1, l2, hq, hq0, hF, hfe, hF0⟩ := hs
    have hQd : Q.natDegree ≤ a.degree - b.degree := by
      rw [natDegree_le_iff_coeff_eq_zero]; exact fun i hi => hq0 i (Or.inr hi)
    refine (rd_sat (hq (a.degree - b.degree) (by omega) (by omega))).bind fun top htop => ?_
    refine (H.eq htop hz).bind fun e he => ?_
    have hne : Q.coeff (a.degree - b.degree) ≠ 0 := by
      intro h0
      have h1 : f.coeff a.degree = Q.coeff (a.degree - b.degree) * g.coeff b.degree + F.coeff a.degree := by
        conv_lhs => rw [hfe, coeff_add]
        rw [show a.degree = (a.degree - b.degree) + b.degree by omega,
          coeff_mul_add_eq_of_natDegree_le hQd hb.deg.le]
        rw [show a.degree - b.degree + b.degree - b.degree = a.degree - b.degree by omega]
      rw [h0, zero_mul, zero_add, hF0 _ (by omega), ← ha.deg] at h1
      exact hf (leadingCoeff_eq_zero.mp h1)
    have hef : e = false := by
      cases e with
      | false => rfl
      | true => exact absurd (he.mp rfl) hne
    rw [hef, if_neg (by simp)]
    have hFd : F.natDegree ≤ rem.degree := by
      rw [hrd, natDegree_le_iff_coeff_eq_zero]; exact fun i hi => hF0 i (by omega)
    refine (recompute_cmp H (by rw [hrd]; exact hF) hFd).bind fun r hr => ?_
    rw [Sat_ok]
    refine ⟨Q, F, ⟨le_antisymm hQd (le_natDegree_of_ne_zero hne), fun i hi => hq i (by omega) hi⟩, hr, hfe, ?_⟩
    exact degree_lt_of_coeff hg fun i hi => hF0 i (by rw [hb.deg] at hi; omega)

theorem longDiv_sat (H : CoefRef U O rep ord) {a b : CPoly α} {f g : R[X]} (ha : PRep rep a f) (hb : PRep rep b g)
    (hf : f ≠ 0) (hg : g ≠ 0) (hle : b.degree ≤ a.degree) (hu : IsUnit g.leadingCoeff) {zero : α} (hz : rep zero 0) :
    (longDiv O zero a b).Sat U (fun s => ∃ q r, PRep rep s.1 q ∧ PRep rep s.2 r ∧ f = q * g + r ∧
      r.degree < g.degree) :=
  longDiv_cmp H.toCmp ha hb hf hg hle hu hz (fun _ hl => H.recip hl (leadingCoeff_ne_zero.mpr hg))
    fun _ _ hu _ _ _ _ _ _ _ _ =>
      ⟨fun _ ha => H.mul ha hu, fun _ hm _ _ _ hy => H.mul hy hm, fun _ _ _ _ hx hy => H.sub hx hy⟩

theorem psub0_cmp (H : CoefCmp U O rep ord) {p : CPoly α} {f : R[X]} (hp : PRep rep p f) :
    (psub O p 0).Sat U (fun r => PRep rep r 0) := by
  unfold psub
  refine (rd_sat hp.c0).bind fun c hc => (H.psub0 hc).bind fun c0 h0 => ?_
  simpa using const_cmp H h0

theorem quot_and_rem_cmp (H : CoefCmp U O rep ord) {a b : CPoly α} {f g : R[X]} (ha : PRep rep a f)
    (hb : PRep rep b g) (hg : g ≠ 0) (hu : IsUnit g.leadingCoeff)
    (hrec : ∀ l, rep l g.leadingCoeff → (O.recip l).Sat U (fun r => match r with
      | none => ¬ IsUnit g.leadingCoeff
      | some i => ∃ y, rep i y ∧ g.leadingCoeff * y = 1))
    (hops : ∀ dlinv u, rep dlinv u → g.leadingCoeff * u = 1 → ∀ k, k < a.degree - b.degree + 1 → ∀ Q F,
      f = Q * g + F → (∀ i, i < k + 1 ∨ a.degree - b.degree < i → Q.coeff i = 0) →
      (∀ i, k + 1 + b.degree ≤ i → F.coeff i = 0) → OpsOk U O rep g b.degree dlinv u k F) :
    (quot_and_rem O a b).Sat U (fun s => ∃ q r, PRep rep s.1 q ∧ PRep rep s.2 r ∧ f = q * g + r ∧
      r.degree < g.degree) := by
  unfold quot_and_rem
  refine (rd_sat ha.c0).bind fun c0 h0 => (H.sub0 h0).bind fun z hz => ?_
  refine (eqConst_cmp H hb hz).bind fun e he => ?_
  have hef : e = false := by
    cases e with
    | false => rfl
    | true => exact absurd (he.mp rfl) hg
  rw [hef, if_neg (by simp)]
  refine (eqConst_cmp H ha hz).bind fun e he => ?_
  have early : f.degree < g.degree → (do let q ← psub O a 0; let r ← copy O a; ok (q, r)).Sat U
      (fun s => ∃ q r, PRep rep s.1 q ∧ PRep rep s.2 r ∧ f = q * g + r ∧ r.degree < g.degree) := by
    intro hlt
    refine (psub0_cmp H ha).bind fun q hq => (copy_sat ha).bind fun r ⟨hr, _⟩ => ?_
    rw [Sat_ok]
    exact ⟨0, f, hq, hr, by simp, hlt⟩
  cases e with
  | true =>
    rw [if_pos rfl]
    apply early
    rw [he.mp rfl, degree_zero, bot_lt_iff_ne_bot, Ne, degree_eq_bot]; exact hg
  | false =>
    rw [if_neg (by simp)]
    have hf : f ≠ 0 := fun h => by simpa using he.mpr h
    split
    · rename_i hlt
      exact early (degree_lt_degree (by rw [ha.deg, hb.deg]; exact hlt))
    · exact longDiv_cmp H ha hb hf hg (by omega) hu hz hrec hops

theorem quot_and_rem_sat (H : CoefRef U O rep ord) {a b : CPoly α} {f g : R[X]} (ha : PRep rep a f)
    (hb : PRep rep b g) (hg : g ≠ 0) (hu : IsUnit g.leadingCoeff) :
    (quot_and_rem O a b).Sat U (fun s => ∃ q r, PRep rep s.1 q ∧ PRep rep s.2 r ∧ f = q * g + r ∧
      r.degree < g.degree) :=
  quot_and_rem_cmp H.toCmp ha hb hg hu (fun _ hl => H.recip hl (leadingCoeff_ne_zero.mpr hg))
    fun _ _ hu _ _ _ _ _ _ _ _ =>
      ⟨fun _ ha => H.mul ha hu, fun _ hm _ _ _ hy => H.mul hy hm, fun _ _ _ _ hx hy => H.sub hx hy⟩

/-- dividing by the zero polynomial throws -/
theorem quot_and_rem_zero (H : CoefRef U O rep ord) {a b : CPoly α} {f : R[X]} (ha : PRep rep a f)
    (hb : PRep rep b 0) : (quot_and_rem O a b).Throws U := by
  unfold quot_and_rem
  refine (rd_sat ha.c0).throws_bind fun c0 h0 => (H.sub h0 h0).throws_bind fun z hz => ?_
  rw [sub_self] at hz
  refine (eqConst_sat H hb hz).throws_bind fun e he => ?_
  rw [he.mpr rfl, if_pos rfl]; exact Or.inl rfl

/-- a divisor with a non-unit leader throws as soon as a division step is needed -/
theorem quot_and_rem_nonunit (H : CoefRef U O rep ord) {a b : CPoly α} {f g : R[X]} (ha : PRep rep a f)
    (hb : PRep rep b g) (hg : g ≠ 0) (hf : f ≠ 0) (hle : b.degree ≤ a.degree) (hu : ¬ IsUnit g.leadingCoeff) :
    (quot_and_rem O a b).Throws U := by
  have hgl : g.coeff b.degree = g.leadingCoeff := by rw [← hb.deg]; rfl
  unfold quot_and_rem
  refine (rd_sat ha.c0).throws_bind fun c0 h0 => (H.sub h0 h0).throws_bind fun z hz => ?_
  rw [sub_self] at hz
  refine (eqConst_sat H hb hz).throws_bind fun e he => ?_
  cases e with
  | true => exact absurd (he.mp rfl) hg
  | false =>
    rw [if_neg (by simp)]
    refine (eqConst_sat H ha hz).throws_bind fun e he => ?_
    cases e with
    | true => exact absurd (he.mp rfl) hf
    | false =>
      rw [if_neg (by simp), if_neg (by omega)]
      unfold longDiv
      refine (copy_sat ha).throws_bind fun rem _ => ?_
      refine (rd_sat (hb.co _ (Nat.lt_succ_self _))).throws_bind fun lead hlead => ?_
      rw [hgl] at hlead
      refine (H.recip hlead (leadingCoeff_ne_zero.mpr hg)).throws_bind fun o ho => ?_
      cases o with
      | none => exact Or.inl rfl
      | some i =>
        obtain ⟨y, _, hy⟩ := ho
        exact absurd (IsUnit.of_mul_eq_one _ hy) hu

/-! ### Evaluation, derivative, coefficient access -/

theorem eval_sat (H : CoefRef U O rep ord) {a : CPoly α} {f : R[X]} (ha : PRep rep a f) {c : α} {x : R}
    (hc : rep c x) : (eval O a c).Sat U (fun r => rep r (f.eval x)) := by
  unfold eval
  refine (rd_sat (ha.co _ (Nat.lt_succ_self _))).bind fun top htop => ?_
  refine (forDown_sat (fun k (r : α) => rep r (∑ i ∈ Finset.range (a.degree + 1 - k), f.coeff (k + i) * x ^ i))
    (by omega) (by rw [show a.degree + 1 - a.degree = 1 by omega]; simpa using htop) fun i r _ hi hr => ?_).mono fun r hr => ?_
  · refine (H.mul hr hc).bind fun t ht => (rd_sat (ha.co i (by omega))).bind fun y hy => ?_
    refine (H.add ht hy).mono fun r hr => ?_
    rw [show a.degree + 1 - i = (a.degree + 1 - (i + 1)) + 1 by omega, Finset.sum_range_succ']
    convert hr using 1
    rw [Finset.sum_mul]
    congr 1
    · refine Finset.sum_congr rfl fun j _ => ?_
      rw [show i + (j + 1) = i + 1 + j by omega, pow_succ]; ring
    · simp
  · rw [eval_eq_sum_range, ha.deg]
    simpa using hr

theorem deriv_sat (H : CoefRef U O rep ord)
    {a : CPoly α} {f : R[X]} (ha : PRep rep a f)
    (hmn : ∀ {c x} (n : ℕ), n ≤ a.degree → rep c x → (O.mulNat c n).Sat U (fun r => rep r (x * (n : R)))) : (deriv O a).Sat U (fun r => PRep rep r (derivative f)) := by
  unfold deriv
  split
  · rename_i h
    refine (psub_sat (v := 0) H ha (by decide)).mono fun r hr => ?_
    rw [eq_C_of_natDegree_eq_zero (ha.deg.trans h), derivative_C]; simpa using hr
  · rename_i h
    refine (copy_sat ha).bind fun rv ⟨hrv, hrd, hrl⟩ => ?_
    refine (forUp_sat (fun k (s : List α) => s.length = a.degree + 1 ∧ ∀ j, j + 1 < k →
      At s j (fun e => rep e (f.coeff (j + 1) * ((j : R) + 1)))) (by omega) ⟨hrl, fun j hj => by omega⟩
      fun i s hi1 hi2 ⟨hs1, hs2⟩ => ?_).bind fun cs hh15 => ?_
    · refine (rd_sat (ha.co i hi2)).bind fun x hx => (hmn i (by omega) hx).bind fun v hv => ?_
      rw [wr_ok (by omega), Sat_ok]
      refine ⟨by simpa using hs1, fun j hj => ?_⟩
      rcases Nat.lt_or_ge (j + 1) i with e | e
      · exact (hs2 j e).congr (List.getElem?_set_ne (by omega))
      · have : j = i - 1 := by omega
        subst this
        refine at_set_self (by omega) ?_
        rw [show i - 1 + 1 = i by omega]
        have : ((i - 1 : ℕ) : R) + 1 = (i : R) := by
          have e1 : i = (i - 1) + 1 := by omega
          conv_rhs => rw [e1]
          push_cast; rfl
        rw [this]; exact hv
    · obtain ⟨h1, h2⟩ := hh15
      refine recompute_sat H (fun i hi => ?_) ?_
      · rw [coeff_derivative]; exact h2 i (by omega)
      · have := natDegree_derivative_le f; rw [ha.deg] at this; exact this

theorem get_coeff_cmp (H : CoefCmp U O rep ord) {a : CPoly α} {f : R[X]} (ha : PRep rep a f) (n : ℕ) :
    (get_coeff O a n).Sat U (fun r => rep r (f.coeff n)) := by
  unfold get_coeff
  rw [if_neg (by omega)]
  split
  · rename_i h
    refine (rd_sat ha.c0).bind fun c hc => (H.sub0 hc).mono fun r hr => ?_
    rw [coeff_eq_zero_of_natDegree_lt (by rw [ha.deg]; omega)]; simpa using hr
  · rename_i h
    simpa using rd_sat (U := U) (ha.co n (by omega))

theorem get_coeff_sat (H : CoefRef U O rep ord) {a : CPoly α} {f : R[X]} (ha : PRep rep a f) (n : ℕ) :
    (get_coeff O a n).Sat U (fun r => rep r (f.coeff n)) :=
  get_coeff_cmp H.toCmp ha n

theorem set_coeff_cmp (H : CoefCmp U O rep ord) {a : CPoly α} {f : R[X]} (ha : PRep rep a f) (n : ℕ) {c : α} {x : R}
    (hc : rep c x) : (set_coeff O a n c).Sat U (fun r => PRep rep r (f.update n x)) := by
  have hup : ∀ i, (f.update n x).coeff i = if i = n then x else f.coeff i := fun i => by
    rw [coeff_update_apply]
  unfold set_coeff
  rw [if_neg (by omega)]
  refine (rd_sat ha.c0).bind fun c0 h0 => (H.psub0 h0).bind fun z hz => ?_
  split
  · rename_i h
    rw [Int.toNat_natCast]
    unfold set_coeff_grow
    refine (fillUp_sat (f := fun i _ => rd a.coeffs i) (P := fun i e => rep e ((f.update n x).coeff i)) (by omega)
      (by simp [new]; omega) fun i s _ hi _ _ _ => ?_).bind fun cs hh16 => ?_
    · rw [hup, if_neg (by omega)]; exact rd_sat (ha.co i hi)
    obtain ⟨h1, h2, _⟩ := hh16
    refine (fillUp_sat (f := fun _ _ => ok z) (P := fun i e => rep e ((f.update n x).coeff i)) (by omega)
      (by rw [h1]; simp [new]) fun i s hi1 hi2 _ _ _ => ?_).bind fun ds hh17 => ?_
    · rw [hup, if_neg (by omega), coeff_eq_zero_of_natDegree_lt (by rw [ha.deg]; omega)]; exact hz
    obtain ⟨h3, h4, h5⟩ := hh17
    have hl : ds.length = n + 1 := by rw [h3, h1]; simp [new]
    rw [wr_ok (by omega), ok_bind]
    have hold : Holds rep (ds.set n c) (n + 1) (f.update n x) := by
      intro i hi
      by_cases e : i = n
      · subst e; exact at_set_self (by omega) (by rw [hup, if_pos rfl]; exact hc)
      · have := join_holds (by omega) h2 h4 h5 h1 i (by omega)
        exact this.congr (List.getElem?_set_ne (Ne.symm e))
    have hdeg : (f.update n x).natDegree ≤ n := by
      rw [natDegree_le_iff_coeff_eq_zero]
      intro i hi
      rw [hup, if_neg (by omega), coeff_eq_zero_of_natDegree_lt (by rw [ha.deg]; omega)]
    refine (H.eq hc hz).bind fun e he => ?_
    cases e with
    | true => rw [if_pos rfl]; exact recompute_cmp H hold hdeg
    | false =>
      rw [if_neg (by simp), Sat_ok]
      refine ⟨le_antisymm hdeg (le_natDegree_of_ne_zero ?_), hold⟩
      rw [hup, if_pos rfl]
      intro h; simpa using he.mpr h
  · rename_i h
    rw [Int.toNat_natCast]
    unfold set_coeff_in
    have hl := ha.len
    rw [wr_ok (by omega), ok_bind]
    have hold : Holds rep (a.coeffs.set n c) (a.degree + 1) (f.update n x) := by
      intro i hi
      rw [hup]
      by_cases e : i = n
      · subst e; exact at_set_self (by omega) (by rw [if_pos rfl]; exact hc)
      · rw [if_neg e]; exact (ha.co i hi).congr (List.getElem?_set_ne (Ne.symm e))
    have hdeg : (f.update n x).natDegree ≤ a.degree := by
      rw [natDegree_le_iff_coeff_eq_zero]
      intro i hi
      rw [hup, if_neg (by omega), coeff_eq_zero_of_natDegree_lt (by rw [ha.deg]; omega)]
    split
    · rename_i hn
      refine (H.eq hc hz).bind fun e he => ?_
      cases e with
      | true => rw [if_pos rfl]; exact recompute_cmp H hold hdeg
      | false =>
        rw [if_neg (by simp), Sat_ok]
        refine ⟨le_antisymm hdeg (le_natDegree_of_ne_zero ?_), hold⟩
        rw [hup, if_pos (by simp [hn])]
        intro h; simpa using he.mpr h
    · rename_i hn
      rw [Sat_ok]
      refine ⟨le_antisymm hdeg ?_, hold⟩
      rcases Nat.eq_zero_or_pos a.degree with e | e
      · simp [e]
      · apply le_natDegree_of_ne_zero
        rw [hup, if_neg (Ne.symm hn)]
        have hf : f ≠ 0 := by rintro rfl; have := ha.deg; simp at this; omega
        show f.coeff a.degree ≠ 0
        rw [← ha.deg]; exact leadingCoeff_ne_zero.mpr hf

theorem set_coeff_sat (H : CoefRef U O rep ord) {a : CPoly α} {f : R[X]} (ha : PRep rep a f) (n : ℕ) {c : α} {x : R}
    (hc : rep c x) : (set_coeff O a n c).Sat U (fun r => PRep rep r (f.update n x)) :=
  set_coeff_cmp H.toCmp ha n hc

/-! ### gcd over a field -/

section field
variable {K : Type} [Field K] {repK : α → K → Prop} {ordK : K → K → Prop}

theorem unit_lead {g : K[X]} (hg : g ≠ 0) : IsUnit g.leadingCoeff := (leadingCoeff_ne_zero.mpr hg).isUnit

theorem gcdLoop_sat (H : CoefRef U O repK ordK) : ∀ (n : ℕ) {c d : CPoly α} {f g : K[X]}, PRep repK c f → PRep repK d g →
    g ≠ 0 → g.natDegree < n → (gcdLoop O n c d).Sat U (fun r => ∃ h, PRep repK r h ∧ IsGcd h f g)
  | 0, _, _, _, _, _, _, _, h => by omega
  | n + 1, c, d, f, g, hc, hd, hg, hn => by
    unfold gcdLoop
    refine (quot_and_rem_sat H hc hd hg (unit_lead hg)).bind fun s ⟨q, r, hq, hr, e, hlt⟩ => ?_
    refine (eqInt_sat H hr).bind fun z hz => ?_
    cases z with
    | true =>
      rw [if_pos rfl, Sat_ok]
      refine ⟨g, hd, ?_, dvd_rfl, fun c _ h => h⟩
      rw [e, hz.mp rfl, add_zero]; exact dvd_mul_left _ _
    | false =>
      rw [if_neg (by simp)]
      have hr0 : r ≠ 0 := fun h => by simpa using hz.mpr h
      have := natDegree_lt_natDegree hr0 hlt
      refine (gcdLoop_sat H n hd hr hr0 (by omega)).mono fun x ⟨h, h1, h2⟩ => ⟨h, h1, isGcd_lin e h2⟩

theorem gcd_sat (H : CoefRef U O repK ordK) {a b : CPoly α} {f g : K[X]} (ha : PRep repK a f) (hb : PRep repK b g) :
    (gcd O a b).Sat U (fun r => ∃ h, PRep repK r h ∧ IsGcd h f g) := by
  unfold gcd
  refine (eqInt_sat H ha).bind fun z hz => ?_
  cases z with
  | true =>
    rw [if_pos rfl]
    refine (copy_sat hb).mono fun r hr => ⟨g, hr.1, ?_, dvd_rfl, fun c _ h => h⟩
    rw [hz.mp rfl]; exact dvd_zero _
  | false =>
    rw [if_neg (by simp)]
    refine (eqInt_sat H hb).bind fun z hz => ?_
    cases z with
    | true =>
      rw [if_pos rfl]
      refine (copy_sat ha).mono fun r hr => ⟨f, hr.1, dvd_rfl, ?_, fun c h _ => h⟩
      rw [hz.mp rfl]; exact dvd_zero _
    | false =>
      rw [if_neg (by simp)]
      exact gcdLoop_sat H _ ha hb (fun h => by simpa using hz.mpr h) (by rw [hb.deg]; omega)

theorem extLoop_sat (H : CoefRef U O repK ordK) {f g : K[X]} : ∀ (n : ℕ) {s : ExtState α} {c d m' n' rm rn : K[X]},
    PRep repK s.c c → PRep repK s.d d → PRep repK s.mprime m' → PRep repK s.nprime n' → PRep repK s.rm rm →
    PRep repK s.rn rn → d ≠ 0 → d.natDegree < n → c = f * m' + g * n' → d = f * rm + g * rn →
    (extLoop O n s).Sat U (fun r => ∃ h u v, PRep repK r.1 h ∧ PRep repK r.2.1 u ∧ PRep repK r.2.2 v ∧
      IsGcd h c d ∧ h = f * u + g * v)
  | 0, _, _, _, _, _, _, _, _, _, _, _, _, _, _, h, _, _ => by omega
  | k + 1, s, c, d, m', n', rm, rn, hc, hd, hm', hn', hrm, hrn, hd0, hk, e1, e2 => by
    unfold extLoop
    refine (quot_and_rem_sat H hc hd hd0 (unit_lead hd0)).bind fun t ⟨q, r, hq, hr, e, hlt⟩ => ?_
    refine (eqInt_sat H hr).bind fun z hz => ?_
    cases z with
    | true =>
      rw [if_pos rfl, Sat_ok]
      refine ⟨d, rm, rn, hd, hrm, hrn, ⟨?_, dvd_rfl, fun c _ h => h⟩, e2⟩
      rw [e, hz.mp rfl, add_zero]; exact dvd_mul_left _ _
    | false =>
      rw [if_neg (by simp)]
      have hr0 : r ≠ 0 := fun h => by simpa using hz.mpr h
      have := natDegree_lt_natDegree hr0 hlt
      refine (mul_sat H hq hrm).bind fun qm hqm => (sub_sat H hm' hqm).bind fun rm' hrm' => ?_
      refine (mul_sat H hq hrn).bind fun qn hqn => (sub_sat H hn' hqn).bind fun rn' hrn' => ?_
      refine (extLoop_sat H k hd hr hrm hrn hrm' hrn' hr0 (by omega) e2 ?_).mono
        fun x ⟨h, u, v, h1, h2, h3, h4, h5⟩ => ⟨h, u, v, h1, h2, h3, isGcd_lin e h4, h5⟩
      linear_combination -e + e1 - q * e2

theorem ext_gcd_sat (H : CoefRef U O repK ordK) {a b : CPoly α} {f g : K[X]} (ha : PRep repK a f) (hb : PRep repK b g)
    (hg : g ≠ 0) : (ext_gcd O a b).Sat U (fun r => ∃ h u v, PRep repK r.1 h ∧ PRep repK r.2.1 u ∧ PRep repK r.2.2 v ∧
      IsGcd h f g ∧ h = f * u + g * v) := by
  unfold ext_gcd
  refine (psub_sat (v := 1) H ha (by decide)).bind fun one h1 => (psub_sat (v := 0) H ha (by decide)).bind fun zero h0 => ?_
  simp only [Int.cast_one, Int.cast_zero, C_1, C_0] at h1 h0
  exact extLoop_sat H _ ha hb h1 h0 h0 h1 hg (by rw [hb.deg]; omega) (by simp) (by simp)

end field

theorem ext_gcd_zero (H : CoefRef U O rep ord) {a b : CPoly α} {f : R[X]} (ha : PRep rep a f) (hb : PRep rep b 0) :
    (ext_gcd O a b).Throws U := by
  unfold ext_gcd
  refine (psub_sat (v := 1) H ha (by decide)).throws_bind fun one h1 => (psub_sat (v := 0) H ha (by decide)).throws_bind fun zero h0 => ?_
  show (extLoop O (b.degree + 1 + 1) _).Throws U
  unfold extLoop
  exact (quot_and_rem_zero H ha hb).bind

/-! ### Powers -/

theorem exp_pos_sat (H : CoefRef U O rep ord) {a : CPoly α} {f : R[X]} (ha : PRep rep a f) (hd : 0 < a.degree)
    {e : Int} (he0 : 0 ≤ e) (he : e < 2 ^ 32) : (exp O a e).Sat U (fun r => PRep rep r (f ^ e.toNat)) := by
  unfold exp
  refine (psub_sat (v := 0) H ha (by decide)).bind fun zero h0 => (psub_sat (v := 1) H ha (by decide)).bind fun one h1 => ?_
  refine (eq_sat H ha h0).bind fun z hz => ?_
  have hf : f ≠ 0 := by rintro rfl; have := ha.deg; simp at this; omega
  cases z with
  | true => exact absurd (hz.mp rfl) (by simpa using hf)
  | false =>
    rw [if_neg (by simp), if_neg (by omega), if_neg (by omega)]
    refine (sqMulLoop_sat (rep := PRep rep) (fun hx hy => mul_sat H hx hy) 32 one a f (C ((1 : Int) : R)) e.toNat
      (by omega) h1 ha).mono fun r hr => ?_
    simpa using hr

theorem exp_neg_throw (H : CoefRef U O rep ord) {a : CPoly α} {f : R[X]} (ha : PRep rep a f) (hd : 0 < a.degree)
    {e : Int} (he0 : e < 0) : (exp O a e).Throws U := by
  unfold exp
  refine (psub_sat (v := 0) H ha (by decide)).throws_bind fun zero h0 => (psub_sat (v := 1) H ha (by decide)).throws_bind fun one h1 => ?_
  refine (eq_sat H ha h0).throws_bind fun z hz => ?_
  have hf : f ≠ 0 := by rintro rfl; have := ha.deg; simp at this; omega
  cases z with
  | true => exact absurd (hz.mp rfl) (by simpa using hf)
  | false =>
    rw [if_neg (by simp), if_neg (by omega), if_pos he0]; exact Or.inl rfl

theorem exp_zero_sat (H : CoefRef U O rep ord) {a : CPoly α} (ha : PRep rep a (0 : R[X])) (e : Int) :
    if e ≤ 0 then (exp O a e).Throws U else (exp O a e).Sat U (fun r => PRep rep r (0 : R[X])) := by
  split
  · unfold exp
    refine (psub_sat (v := 0) H ha (by decide)).throws_bind fun zero h0 => (psub_sat (v := 1) H ha (by decide)).throws_bind fun one h1 => ?_
    refine (eq_sat H ha h0).throws_bind fun z hz => ?_
    rw [hz.mpr (by simp), if_pos rfl]
    split
    · exact Or.inl rfl
    · rw [if_pos (by omega)]; exact Or.inl rfl
  · unfold exp
    refine (psub_sat (v := 0) H ha (by decide)).bind fun zero h0 => (psub_sat (v := 1) H ha (by decide)).bind fun one h1 => ?_
    refine (eq_sat H ha h0).bind fun z hz => ?_
    rw [hz.mpr (by simp), if_pos rfl, if_neg (by omega), if_neg (by omega), Sat_ok]
    simpa using h0

/-- constants are raised with the coefficient's own `exp` -/
theorem exp_const_sat (H : CoefRef U O rep ord) {a : CPoly α} {x z : R} {e : Int} (ha : PRep rep a (C x)) (hx : x ≠ 0)
    (hexp : ∀ {c}, rep c x → (O.exp c e).Sat U (fun r => rep r z)) :
    (exp O a e).Sat U (fun r => PRep rep r (C z)) := by
  unfold exp
  refine (psub_sat (v := 0) H ha (by decide)).bind fun zero h0 => (psub_sat (v := 1) H ha (by decide)).bind fun one h1 => ?_
  refine (eq_sat H ha h0).bind fun b hb => ?_
  cases b with
  | true =>
    have := hb.mp rfl
    simp only [Int.cast_zero, C_0] at this
    exact absurd (C_eq_zero.mp this) hx
  | false =>
    rw [if_neg (by simp), if_pos (by rw [← ha.deg]; simp)]
    refine (rd_sat ha.c0).bind fun c hc => ?_
    rw [coeff_C_zero] at hc
    exact (hexp hc).bind fun v hv => const_sat H hv

/-- an object for every polynomial, given one for every coefficient -/
theorem exists_prep (hrep : ∀ x : R, ∃ a, rep a x) (f : R[X]) : ∃ p, PRep rep p f := by
  choose o ho using hrep
  refine ⟨⟨f.natDegree, (List.range (f.natDegree + 1)).map fun i => o (f.coeff i)⟩, rfl, fun i hi => ?_⟩
  refine ⟨o (f.coeff i), ?_, ho _⟩
  simp only at hi
  simp [hi]

theorem PRep.inj (hinj : ∀ {a x y}, rep a x → rep a y → x = y) {p : CPoly α} {f g : R[X]} (hf : PRep rep p f)
    (hg : PRep rep p g) : f = g := by
  refine ext_of_coeff_le hf.deg.le hg.deg.le fun i hi => ?_
  obtain ⟨e, h1, h2⟩ := hf.co i hi
  obtain ⟨e', h1', h2'⟩ := hg.co i hi
  rw [h1] at h1'; cases h1'
  exact hinj h2 h2'

end CPoly
end Spffl
