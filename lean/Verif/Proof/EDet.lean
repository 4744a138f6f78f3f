/-
Row reduction and determinant of tmatrix over a Euclidean domain: the elimination keeps the matrix row
equivalent to the input over the field of fractions, and the tracked fraction is the determinant factor.
-/
import Verif.Model.EDet
import Verif.Proof.RowReduce
import Verif.Base.PolyLemmas
import Mathlib.RingTheory.Localization.FractionRing

namespace Spffl
open Res

/-- The element operations refine the integral domain `R`.  `wrep` allows for storage that a product may leave
behind (f2_poly_t: a zero with several words). -/
structure EDRef (U : Prop) {α R : Type} [CommRing R] (O : EDOps α) (rep wrep : α → R → Prop) : Prop where
  weak : ∀ {a x}, rep a x → wrep a x
  sub : ∀ {a b x y}, wrep a x → wrep b y → (O.sub a b).Sat U (fun r => rep r (x - y))
  mul : ∀ {a b x y}, rep a x → rep b y → x * y ≠ 0 → (O.mul a b).Sat U (fun r => rep r (x * y))
  mulw : ∀ {a b x y}, (rep a x ∨ wrep a x ∧ y = 0) → rep b y → (O.mul a b).Sat U (fun r => wrep r (x * y))
  div : ∀ {a b y q}, wrep a (y * q) → rep b y → y ≠ 0 → (O.div a b).Sat U (fun r => rep r q)
  mod : ∀ {a b y q}, wrep a (y * q) → rep b y → y ≠ 0 → (O.mod a b).Sat U (fun r => rep r 0)
  gcd : ∀ {a b x y}, rep a x → rep b y → (O.gcd a b).Sat U (fun r => ∃ g, rep r g ∧ IsGcd g x y)
  eq : ∀ {a b x y}, rep a x → rep b y → (O.eq a b).Sat U (fun r => r = true ↔ x = y)

/-- no non-unit divides the whole row -/
def PrimRow {R : Type} [CommRing R] {n : ℕ} (x : Fin n → R) : Prop := x = 0 ∨ ∀ d, (∀ j, d ∣ x j) → IsUnit d

/-- Rows above `top` are finished (non-zero leading entries in columns `p i < left`), rows from `top` on are
zero in the columns before `left`. -/
structure EEch {R : Type} [CommRing R] {m n : ℕ} (B : Matrix (Fin m) (Fin n) R) (top left : ℕ) (p : ℕ → ℕ) : Prop where
  htop : top ≤ m
  hleft : left ≤ n
  mono : ∀ i j, i < j → j < top → p i < p j
  lt : ∀ i, i < top → p i < left
  lead : ∀ (i : Fin m) (j : Fin n), (i : ℕ) < top → (j : ℕ) = p i → B i j ≠ 0
  left0 : ∀ (i : Fin m) (j : Fin n), (i : ℕ) < top → (j : ℕ) < p i → B i j = 0
  below : ∀ (i : Fin m) (j : Fin n), top ≤ (i : ℕ) → (j : ℕ) < left → B i j = 0
  prim : ∀ i : Fin m, (i : ℕ) < top → PrimRow (B i)

namespace EEch
variable {R : Type} [CommRing R] {m n : ℕ} {B : Matrix (Fin m) (Fin n) R} {top left : ℕ} {p : ℕ → ℕ}

theorem init (B : Matrix (Fin m) (Fin n) R) (p : ℕ → ℕ) : EEch B 0 0 p :=
  ⟨by omega, by omega, fun _ _ _ h => by omega, fun _ h => by omega, fun _ _ h => by omega, fun _ _ h => by omega,
    fun _ _ _ h => by omega, fun _ h => by omega⟩

theorem skip (h : EEch B top left p) (hl : left < n) (hz : ∀ (i : Fin m), top ≤ (i : ℕ) → B i ⟨left, hl⟩ = 0) :
    EEch B top (left + 1) p where
  htop := h.htop
  hleft := hl
  mono := h.mono
  lt := fun i hi => (h.lt i hi).trans (by omega)
  lead := h.lead
  left0 := h.left0
  below := fun i j hi hj => by
    by_cases hj' : (j : ℕ) < left
    · exact h.below i j hi hj'
    · have : j = ⟨left, hl⟩ := Fin.ext (by simp; omega)
      rw [this]; exact hz i hi
  prim := h.prim

/-- any change to the rows from `top` on that keeps them zero before `left` -/
theorem change (h : EEch B top left p) {B' : Matrix (Fin m) (Fin n) R} (h1 : ∀ i : Fin m, (i : ℕ) < top → B' i = B i)
    (h2 : ∀ (i : Fin m) (j : Fin n), top ≤ (i : ℕ) → (j : ℕ) < left → B' i j = 0) : EEch B' top left p where
  htop := h.htop
  hleft := h.hleft
  mono := h.mono
  lt := h.lt
  lead := fun i j hi => by rw [h1 i hi]; exact h.lead i j hi
  left0 := fun i j hi => by rw [h1 i hi]; exact h.left0 i j hi
  below := h2
  prim := fun i hi => by rw [h1 i hi]; exact h.prim i hi

theorem advance (h : EEch B top left p) (ht : top < m) (hl : left < n) (h1 : B ⟨top, ht⟩ ⟨left, hl⟩ ≠ 0)
    (h2 : ∀ i : Fin m, top < (i : ℕ) → B i ⟨left, hl⟩ = 0) (h3 : PrimRow (B ⟨top, ht⟩)) :
    EEch B (top + 1) (left + 1) (Function.update p top left) where
  htop := ht
  hleft := hl
  mono := fun i j hij hj => by
    by_cases hjt : j = top
    · subst hjt
      rw [Function.update_of_ne (by omega), Function.update_self]
      exact h.lt i hij
    · rw [Function.update_of_ne (by omega), Function.update_of_ne hjt]
      exact h.mono i j hij (by omega)
  lt := fun i hi => by
    by_cases hit : i = top
    · subst hit; simp
    · rw [Function.update_of_ne hit]
      exact (h.lt i (by omega)).trans (by omega)
  lead := fun i j hi hj => by
    by_cases hit : (i : ℕ) = top
    · rw [hit, Function.update_self] at hj
      have e1 : i = ⟨top, ht⟩ := Fin.ext hit
      have e2 : j = ⟨left, hl⟩ := Fin.ext hj
      rw [e1, e2]; exact h1
    · rw [Function.update_of_ne hit] at hj
      exact h.lead i j (by omega) hj
  left0 := fun i j hi hj => by
    by_cases hit : (i : ℕ) = top
    · rw [hit, Function.update_self] at hj
      exact h.below i j (by omega) hj
    · rw [Function.update_of_ne hit] at hj
      exact h.left0 i j (by omega) hj
  below := fun i j hi hj => by
    by_cases hj' : (j : ℕ) < left
    · exact h.below i j (by omega) hj'
    · have : j = ⟨left, hl⟩ := Fin.ext (by simp; omega)
      rw [this]; exact h2 i (by omega)
  prim := fun i hi => by
    by_cases hit : (i : ℕ) = top
    · have e1 : i = ⟨top, ht⟩ := Fin.ext hit
      rw [e1]; exact h3
    · exact h.prim i (by omega)

end EEch

/-- Row echelon form with `r` non-zero rows whose leading entries, in columns `p 0 < p 1 < ...`, are not 0. -/
structure IsEch {R : Type} [CommRing R] {m n : ℕ} (B : Matrix (Fin m) (Fin n) R) (r : ℕ) (p : ℕ → ℕ) : Prop where
  le : r ≤ m
  mono : ∀ i j, i < j → j < r → p i < p j
  lt : ∀ i, i < r → p i < n
  zero : ∀ i : Fin m, r ≤ (i : ℕ) → B i = 0
  lead : ∀ (i : Fin m) (j : Fin n), (i : ℕ) < r → (j : ℕ) = p i → B i j ≠ 0
  left : ∀ (i : Fin m) (j : Fin n), (i : ℕ) < r → (j : ℕ) < p i → B i j = 0
  prim : ∀ i : Fin m, (i : ℕ) < r → PrimRow (B i)

theorem EEch.final {R : Type} [CommRing R] {m n : ℕ} {B : Matrix (Fin m) (Fin n) R} {top left : ℕ} {p : ℕ → ℕ}
    (h : EEch B top left p) (hd : ¬ (top < m ∧ left < n)) : IsEch B top p where
  le := h.htop
  mono := h.mono
  lt := fun i hi => (h.lt i hi).trans_le h.hleft
  zero := fun i hi => by
    have := h.htop; have := h.hleft; have := i.2
    exact funext fun j => h.below i j hi (by have := j.2; omega)
  lead := h.lead
  left := h.left0
  prim := h.prim

namespace IsEch
variable {R : Type} [CommRing R] {m n r : ℕ} {p : ℕ → ℕ}

theorem p_ge {B : Matrix (Fin m) (Fin n) R} (h : IsEch B r p) : ∀ i, i < r → i ≤ p i
  | 0, _ => Nat.zero_le _
  | i + 1, hi => by have := p_ge h i (by omega); have := h.mono i (i + 1) (by omega) hi; omega

theorem upper {B : Matrix (Fin n) (Fin n) R} (h : IsEch B r p) {i j : Fin n} (hij : j < i) : B i j = 0 := by
  by_cases hi : (i : ℕ) < r
  · exact h.left i j hi (lt_of_lt_of_le hij (h.p_ge i hi))
  · rw [h.zero i (by omega)]; rfl

theorem det_eq {B : Matrix (Fin n) (Fin n) R} (h : IsEch B r p) : B.det = ∏ i, B i i :=
  Matrix.det_of_upperTriangular fun _ _ hij => h.upper hij

/-- once a diagonal entry vanishes, so do the later ones -/
theorem diag_zero {B : Matrix (Fin n) (Fin n) R} (h : IsEch B r p) {i j : Fin n} (hij : i ≤ j) (hz : B i i = 0) : B j j = 0 := by
  by_cases hi : (j : ℕ) < r
  · have hir : (i : ℕ) < r := lt_of_le_of_lt hij hi
    have h1 : (i : ℕ) < p i := lt_of_le_of_ne (h.p_ge i hir) fun he => h.lead i i hir he hz
    have key : ∀ k, (i : ℕ) + k < r → (i : ℕ) + k < p (i + k) := by
      intro k
      induction k with
      | zero => intro _; simpa using h1
      | succ k ih =>
        intro hk
        have := ih (by omega)
        have := h.mono (i + k) (i + (k + 1)) (by omega) hk
        omega
    have hle : (i : ℕ) ≤ j := hij
    refine h.left j j hi ?_
    have := key (j - i) (by omega)
    rwa [Nat.add_sub_cancel' hle] at this
  · rw [h.zero j (by omega)]; rfl

end IsEch

variable {U : Prop} {α R : Type} [CommRing R] {O : EDOps α} {rep wrep : α → R → Prop} {m n : ℕ}

theorem EDRef.eqRef (H : EDRef U O rep wrep) : EqRef U O.toTOps rep := H.eq

theorem vgcd_sat (H : EDRef U O rep wrep) {v : TVec α} {x : Fin n → R} (hn : 0 < n) (hv : VRep rep v x) :
    (TVec.vgcd O v).Sat U (fun r => ∃ g, rep r g ∧ (∀ j, g ∣ x j) ∧ ∀ d, (∀ j, d ∣ x j) → d ∣ g) := by
  unfold TVec.vgcd
  refine (rd_sat (hv.at hn)).bind fun a ha => ?_
  rw [hv.1]
  refine (forUp_sat (fun i r => ∃ g, rep r g ∧ (∀ j : Fin n, (j : ℕ) < i → g ∣ x j) ∧
    ∀ d, (∀ j : Fin n, (j : ℕ) < i → d ∣ x j) → d ∣ g) hn ⟨_, ha, fun j hj => ?_, fun d hd => hd ⟨0, hn⟩ (by simp)⟩ ?_).mono
    fun r ⟨g, h1, h2, h3⟩ => ⟨g, h1, fun j => h2 j j.2, fun d hd => h3 d fun j _ => hd j⟩
  · have : j = ⟨0, hn⟩ := Fin.ext (by simp; omega)
    rw [this]
  · rintro i r h1 hi ⟨g, hg, h2, h3⟩
    refine (rd_sat (hv.at hi)).bind fun b hb => ?_
    refine (H.gcd hg hb).mono fun r' ⟨g', hg', h4, h5, h6⟩ => ⟨g', hg', fun j hj => ?_, fun d hd => ?_⟩
    · by_cases hji : (j : ℕ) < i
      · exact h4.trans (h2 j hji)
      · have : j = ⟨i, hi⟩ := Fin.ext (by simp; omega)
        rw [this]; exact h5
    · exact h6 d (h3 d fun j hj => hd j (by omega)) (hd ⟨i, hi⟩ (by simp))

theorem div_by_sat (H : EDRef U O rep wrep) {v : TVec α} {x : Fin n → R} {g : R} (hv : VRep rep v (g • x)) {e : α}
    (he : rep e g) (hg : g ≠ 0) : (TVec.div_by O v e).Sat U (fun r => VRep rep r x) := by
  unfold TVec.div_by
  rw [hv.1]
  refine (fillUp_sat (f := fun i s' => (do let x ← rd s' i; O.div x e)) (P := fun i e => ∀ hi : i < n, rep e (x ⟨i, hi⟩))
    (Nat.zero_le _) (by rw [hv.1]) fun i s' _ hi hl hc _ => ?_).mono fun r ⟨h1, h2, _⟩ => VRep.of (by rw [h1, hv.1]) fun j hj =>
      (h2 j (by omega) hj).mono fun e he => he hj
  refine (rd_sat ((hv.at hi).congr (hc i (Or.inr le_rfl)))).bind fun p hp => ?_
  exact (H.div (H.weak hp) he hg).mono fun r hr _ => hr

theorem accumW_sat (H : EDRef U O rep wrep) {v t : TVec α} {x y : Fin n → R} (hv : VRep rep v x) (ht : VRep rep t y) {a b : α} {c d : R}
    (ha : rep a c) (hb : rep b d) : (TVec.accum_row_mul O.toTOps v a b t).Sat U (fun r => VRep rep r (c • x - d • y)) := by
  unfold TVec.accum_row_mul
  rw [if_neg (by rw [hv.1, ht.1]; simp)]
  simp only [pure_eq, ok_bind]
  rw [hv.1]
  refine (fillUp_sat (f := fun i s' => (do
      let x ← rd s' i
      let p ← O.mul x a
      let y ← rd t i
      let q ← O.mul y b
      O.sub p q)) (P := fun i e => ∀ hi : i < n, rep e (c * x ⟨i, hi⟩ - d * y ⟨i, hi⟩))
    (Nat.zero_le _) (by rw [hv.1]) fun i s' _ hi hl he _ => ?_).mono fun r ⟨h1, h2, _⟩ => VRep.of (by rw [h1, hv.1]) fun j hj =>
      (h2 j (by omega) hj).mono fun e he => he hj
  refine (rd_sat ((hv.at hi).congr (he i (Or.inr le_rfl)))).bind fun p hp => ?_
  refine (H.mulw (Or.inl hp) ha).bind fun p' hp' => ?_
  refine (rd_sat (ht.at hi)).bind fun q hq => ?_
  refine (H.mulw (Or.inl hq) hb).bind fun q' hq' => ?_
  exact (H.sub hp' hq').mono fun r hr _ => by rwa [mul_comm c, mul_comm d]

variable [IsDomain R] {K : Type} [Field K] [Algebra R K] [IsFractionRing R K]

/-- `A` over the fraction field -/
abbrev fr (K : Type) [Field K] [Algebra R K] (M : Matrix (Fin m) (Fin n) R) : Matrix (Fin m) (Fin n) K := M.map (algebraMap R K)

omit [IsDomain R] [IsFractionRing R K] in
theorem fr_updateRow (M : Matrix (Fin m) (Fin n) R) (i : Fin m) (x : Fin n → R) :
    fr K (M.updateRow i x) = (fr K M).updateRow i (fun j => algebraMap R K (x j)) := by
  ext a b
  by_cases ha : a = i
  · subst ha; simp
  · simp [Matrix.updateRow_ne ha]

theorem am_ne (K : Type) [Field K] [Algebra R K] [IsFractionRing R K] {x : R} (hx : x ≠ 0) : algebraMap R K x ≠ 0 := by
  simpa using hx

/-- state of the elimination -/
structure EDRel (K : Type) [Field K] [Algebra R K] (rep : α → R → Prop) (M0 : Matrix (Fin m) (Fin n) R) (st : EDSt α)
    (M : Matrix (Fin m) (Fin n) R) : Prop where
  mat : MRep rep st.A M
  sc : ∃ x y, rep st.sn x ∧ rep st.sd y ∧ x ≠ 0 ∧ y ≠ 0 ∧ RowEq (fr K M0) (fr K M) (algebraMap R K x / algebraMap R K y)

/-- row `i` of `M` divided by a non-zero `g` -/
def DivRow (M : Matrix (Fin m) (Fin n) R) (i : Fin m) (M' : Matrix (Fin m) (Fin n) R) : Prop :=
  ∃ (g : R) (x : Fin n → R), g ≠ 0 ∧ M i = g • x ∧ M' = M.updateRow i x ∧ PrimRow x

omit [IsDomain R] in
theorem DivRow.prim {M M' : Matrix (Fin m) (Fin n) R} {i : Fin m} (h : DivRow M i M') : PrimRow (M' i) := by
  obtain ⟨g, x, _, _, rfl, hp⟩ := h
  rwa [Matrix.updateRow_self]

omit [IsDomain R] in
theorem DivRow.ne {M M' : Matrix (Fin m) (Fin n) R} {i k : Fin m} (h : DivRow M i M') (hk : k ≠ i) : M' k = M k := by
  obtain ⟨g, x, _, _, rfl, _⟩ := h
  rw [Matrix.updateRow_ne hk]

theorem DivRow.zero_iff {M M' : Matrix (Fin m) (Fin n) R} {i : Fin m} (h : DivRow M i M') (k : Fin m) (j : Fin n) :
    M' k j = 0 ↔ M k j = 0 := by
  obtain ⟨g, x, hg, hx, rfl, _⟩ := h
  by_cases hk : k = i
  · subst hk; rw [hx]; simp [hg]
  · rw [Matrix.updateRow_ne hk]

theorem prim_of_gcd {g : R} {x : Fin n → R} (hg : g ≠ 0) (h : ∀ d, (∀ j, d ∣ (g • x) j) → d ∣ g) : PrimRow x := by
  right
  intro d hd
  have : g * d ∣ g := h (g * d) fun j => by simpa using mul_dvd_mul_left g (hd j)
  obtain ⟨c, hc⟩ := this
  refine IsUnit.of_mul_eq_one c (mul_left_cancel₀ hg ?_)
  rw [← mul_assoc, ← hc, mul_one]

theorem edNorm_sat (H : EDRef U O rep wrep) {M0 M : Matrix (Fin m) (Fin n) R} {st : EDSt α} {zero : α} (hz : rep zero 0)
    (h : EDRel K rep M0 st M) (hn : 0 < n) {i : ℕ} (hi : i < m) :
    (TMat.edNorm O zero i st).Sat U (fun r => ∃ M', EDRel K rep M0 r M' ∧ DivRow M ⟨i, hi⟩ M') := by
  obtain ⟨hA, x, y, hx, hy, hx0, hy0, hR⟩ := h
  unfold TMat.edNorm
  refine (rd_sat (hA.rowRep hi)).bind fun v hv => ?_
  refine (vgcd_sat H hn hv).bind fun g ⟨g', hg, h1, h2⟩ => ?_
  refine (neq_sat H.eqRef hg hz).bind fun d hd => ?_
  by_cases hg0 : g' = 0
  · have : d = false := by cases d with | true => exact absurd hg0 (hd.mp rfl) | false => rfl
    subst this
    simp only [Bool.false_eq_true, if_false, Sat_ok]
    refine ⟨M, ⟨hA, x, y, hx, hy, hx0, hy0, hR⟩, 1, M ⟨i, hi⟩, one_ne_zero, by simp, by simp, ?_⟩
    left
    funext j
    have := h1 j
    rw [hg0, zero_dvd_iff] at this
    exact this
  · rw [if_pos (hd.mpr hg0)]
    choose q hq using h1
    have hrow : M ⟨i, hi⟩ = g' • q := funext fun j => by rw [hq j]; rfl
    refine (setRow_sat (x := q) hA hi (div_by_sat H (by rw [← hrow]; exact hv) hg hg0)).bind fun B hB => ?_
    refine (H.mul hx hg (mul_ne_zero hx0 hg0)).bind fun sn' hsn => ?_
    rw [Sat_ok]
    refine ⟨_, ⟨hB, x * g', y, hsn, hy, mul_ne_zero hx0 hg0, hy0, ?_⟩, g', q, hg0, hrow, rfl, ?_⟩
    · have := hR.scale ⟨i, hi⟩ (c := (algebraMap R K g')⁻¹) (d := algebraMap R K g') (mul_inv_cancel₀ (am_ne K hg0))
      rw [fr_updateRow]
      convert this using 1
      · congr 1
        funext j
        have : (fr K M) ⟨i, hi⟩ j = algebraMap R K g' * algebraMap R K (q j) := by
          simp only [Matrix.map_apply]; rw [hrow]; simp
        simp only [Pi.smul_apply, smul_eq_mul]
        rw [this, inv_mul_cancel_left₀ (am_ne K hg0)]
      · rw [map_mul]; ring
    · exact prim_of_gcd hg0 fun d hd => h2 d fun j => by rw [hrow]; exact hd j

theorem edSwap_sat (H : EDRef U O rep wrep) {M0 M : Matrix (Fin m) (Fin n) R} {st : EDSt α} {zero : α} (hz : rep zero 0)
    (h : EDRel K rep M0 st M) {top piv left : ℕ} {p : ℕ → ℕ} (he : EEch M top left p) (ht : top < m) (hp : piv < m) (htp : top ≤ piv)
    (hl : left < n) (hne : M ⟨piv, hp⟩ ⟨left, hl⟩ ≠ 0) :
    (TMat.edSwap O zero top piv st).Sat U (fun r => ∃ M', EDRel K rep M0 r M' ∧ EEch M' top left p ∧ M' ⟨top, ht⟩ ⟨left, hl⟩ ≠ 0) := by
  unfold TMat.edSwap
  by_cases heq : top = piv
  · subst heq
    rw [if_neg (by simp), Sat_ok]
    exact ⟨M, h, he, hne⟩
  · rw [if_pos heq]
    obtain ⟨hA, x, y, hx, hy, hx0, hy0, hR⟩ := h
    refine (swap_sat hA ht hp).bind fun B hB => ?_
    refine (H.sub (H.weak hz) (H.weak hx)).bind fun s' hs' => ?_
    rw [Sat_ok]
    refine ⟨_, ⟨hB, _, y, hs', hy, by simpa using hx0, hy0, ?_⟩, he.change (fun i hi => ?_) (fun i j hi hj => ?_), ?_⟩
    · have := hR.swap (i := ⟨top, ht⟩) (k := ⟨piv, hp⟩) (by simpa [Fin.ext_iff] using heq)
      have e : algebraMap R K (0 - x) / algebraMap R K y = algebraMap R K x / algebraMap R K y * (0 - 1) := by
        rw [zero_sub, map_neg]; ring
      rw [e]; exact this
    · ext j
      simp only [Matrix.submatrix_apply, id_eq]
      rw [Equiv.swap_apply_of_ne_of_ne (by rintro rfl; simp at hi) (by rintro rfl; simp at hi; omega)]
    · simp only [Matrix.submatrix_apply, id_eq]
      refine he.below _ _ ?_ hj
      by_cases h1 : i = ⟨top, ht⟩
      · subst h1; simpa using htp
      · by_cases h2 : i = ⟨piv, hp⟩
        · subst h2; simp
        · rw [Equiv.swap_apply_of_ne_of_ne h1 h2]; exact hi
    · simpa using hne

theorem edCancel_sat (H : EDRef U O rep wrep) {M0 M : Matrix (Fin m) (Fin n) R} {st : EDSt α} {zero : α} (hz : rep zero 0)
    (h : EDRel K rep M0 st M) : (TMat.edCancel O zero st).Sat U (fun r => EDRel K rep M0 r M) := by
  obtain ⟨hA, x, y, hx, hy, hx0, hy0, hR⟩ := h
  unfold TMat.edCancel
  refine (H.gcd hx hy).bind fun g ⟨g', hg, ⟨qx, h1⟩, ⟨qy, h2⟩, _⟩ => ?_
  have hg0 : g' ≠ 0 := by rintro rfl; exact hx0 (by simpa using h1)
  refine (neq_sat H.eqRef hg hz).bind fun d hd => ?_
  rw [if_pos (hd.mpr hg0)]
  refine (H.div (q := qx) (by rw [← h1]; exact H.weak hx) hg hg0).bind fun sn hsn => ?_
  refine (H.div (q := qy) (by rw [← h2]; exact H.weak hy) hg hg0).bind fun sd hsd => ?_
  rw [Sat_ok]
  refine ⟨hA, qx, qy, hsn, hsd, by rintro rfl; simp at h1; exact hx0 h1, by rintro rfl; simp at h2; exact hy0 h2, ?_⟩
  convert hR using 1
  rw [h1, h2, map_mul, map_mul, mul_div_mul_left _ _ (am_ne K hg0)]

theorem RowEq.elim {A B : Matrix (Fin m) (Fin n) K} {s : K} (h : RowEq A B s) {i k : Fin m} (hik : i ≠ k) {c : K} (hc : c ≠ 0) (d : K) :
    RowEq A (B.updateRow i (c • B i - d • B k)) (s * c⁻¹) := by
  have := (h.scale i (c := c) (d := c⁻¹) (inv_mul_cancel₀ hc)).addRow hik (-d)
  rw [Matrix.updateRow_self, Matrix.updateRow_ne (Ne.symm hik), Matrix.updateRow_idem, neg_smul, ← sub_eq_add_neg] at this
  exact this

theorem edElim_sat (H : EDRef U O rep wrep) {M0 M : Matrix (Fin m) (Fin n) R} {st : EDSt α} {lead : α}
    (h : EDRel K rep M0 st M) {top left cur : ℕ} (ht : top < m) (hl : left < n) (hc : cur < m) (htc : top ≠ cur)
    (hlead : rep lead (M ⟨top, ht⟩ ⟨left, hl⟩)) (hne : M ⟨top, ht⟩ ⟨left, hl⟩ ≠ 0) :
    (TMat.edElim O lead top left cur st).Sat U (fun r => ∃ c d : R, c ≠ 0 ∧ c * M ⟨cur, hc⟩ ⟨left, hl⟩ = d * M ⟨top, ht⟩ ⟨left, hl⟩ ∧
      EDRel K rep M0 r (M.updateRow ⟨cur, hc⟩ (c • M ⟨cur, hc⟩ - d • M ⟨top, ht⟩))) := by
  obtain ⟨hA, x, y, hx, hy, hx0, hy0, hR⟩ := h
  unfold TMat.edElim
  refine (get_sat (hA.at hc hl)).bind fun cl hcl => ?_
  refine (H.gcd hlead hcl).bind fun g ⟨g', hg, ⟨c, h1⟩, ⟨d, h2⟩, _⟩ => ?_
  have hg0 : g' ≠ 0 := by rintro rfl; exact hne (by simpa using h1)
  have hc0 : c ≠ 0 := by rintro rfl; exact hne (by simpa using h1)
  refine (H.div (q := d) (by rw [← h2]; exact H.weak hcl) hg hg0).bind fun tm htm => ?_
  refine (H.div (q := c) (by rw [← h1]; exact H.weak hlead) hg hg0).bind fun cm hcm => ?_
  refine (setRow_sat (x := c • M ⟨cur, hc⟩ - d • M ⟨top, ht⟩) hA hc ?_).bind fun B hB => ?_
  · refine (rd_sat (hA.rowRep hc)).bind fun v hv => ?_
    refine (rd_sat (hA.rowRep ht)).bind fun t ht => ?_
    exact accumW_sat H hv ht hcm htm
  refine (H.mul hy hcm (mul_ne_zero hy0 hc0)).bind fun sd hsd => ?_
  rw [Sat_ok]
  refine ⟨c, d, hc0, by rw [h1, h2]; ring, hB, x, y * c, hx, hsd, hx0, mul_ne_zero hy0 hc0, ?_⟩
  have := hR.elim (i := ⟨cur, hc⟩) (k := ⟨top, ht⟩) (by simpa [Fin.ext_iff] using Ne.symm htc) (am_ne K hc0) (algebraMap R K d)
  rw [fr_updateRow]
  convert this using 1
  · congr 1
    funext j
    simp [Algebra.smul_def]
  · rw [map_mul, ← div_eq_mul_inv, div_div]

theorem edStep_sat (H : EDRef U O rep wrep) {M0 M : Matrix (Fin m) (Fin n) R} {st : EDSt α} {zero lead : α} (hz : rep zero 0)
    (h : EDRel K rep M0 st M) {top left cur : ℕ} {p : ℕ → ℕ} (ht : top < m) (hl : left < n) (hc : cur < m) (htc : top < cur)
    (hlead : rep lead (M ⟨top, ht⟩ ⟨left, hl⟩)) (hne : M ⟨top, ht⟩ ⟨left, hl⟩ ≠ 0) (he : EEch M top left p) :
    (TMat.edStep O zero lead top left cur st).Sat U (fun r => ∃ M', EDRel K rep M0 r M' ∧ EEch M' top left p ∧
      (∀ i : Fin m, (i : ℕ) ≠ cur → M' i = M i) ∧ M' ⟨cur, hc⟩ ⟨left, hl⟩ = 0) := by
  have hn : 0 < n := by omega
  unfold TMat.edStep
  refine (edNorm_sat H hz h hn hc).bind fun s1 ⟨M1, r1, d1⟩ => ?_
  have htop : (⟨top, ht⟩ : Fin m) ≠ ⟨cur, hc⟩ := by simp [Fin.ext_iff]; omega
  have e1 : M1 ⟨top, ht⟩ ⟨left, hl⟩ = M ⟨top, ht⟩ ⟨left, hl⟩ := by rw [d1.ne htop]
  refine (edElim_sat H r1 ht hl hc (by omega) (by rw [e1]; exact hlead) (by rw [e1]; exact hne)).bind
    fun s2 ⟨c, d, hc0, hcd, r2⟩ => ?_
  refine (edNorm_sat H hz r2 hn hc).bind fun s3 ⟨M3, r3, d3⟩ => ?_
  refine (edCancel_sat H hz r3).mono fun s4 r4 => ?_
  have hkeep : ∀ i : Fin m, (i : ℕ) ≠ cur → M3 i = M i := fun i hi => by
    have hi' : i ≠ ⟨cur, hc⟩ := by simpa [Fin.ext_iff] using hi
    rw [d3.ne hi', Matrix.updateRow_ne hi', d1.ne hi']
  refine ⟨M3, r4, he.change (fun i hi => hkeep i (by omega)) (fun i j hi hj => ?_), hkeep, ?_⟩
  · by_cases hic : i = ⟨cur, hc⟩
    · subst hic
      rw [d3.zero_iff]
      have z1 : M1 ⟨cur, hc⟩ j = 0 := by rw [d1.zero_iff]; exact he.below _ j hi hj
      have z2 : M1 ⟨top, ht⟩ j = 0 := by rw [d1.zero_iff]; exact he.below _ j le_rfl hj
      simp [z1, z2]
    · rw [hkeep i (by simpa [Fin.ext_iff] using hic)]; exact he.below i j hi hj
  · rw [d3.zero_iff]; simp [hcd]

theorem edClear_sat (H : EDRef U O rep wrep) {M0 M : Matrix (Fin m) (Fin n) R} {st : EDSt α} {zero : α} (hz : rep zero 0)
    (h : EDRel K rep M0 st M) {top left : ℕ} {p : ℕ → ℕ} (ht : top < m) (hl : left < n) (hne : M ⟨top, ht⟩ ⟨left, hl⟩ ≠ 0)
    (he : EEch M top left p) :
    (TMat.edClear O zero top left st).Sat U (fun r => ∃ M', EDRel K rep M0 r M' ∧
      EEch M' (top + 1) (left + 1) (Function.update p top left)) := by
  have hn : 0 < n := by omega
  unfold TMat.edClear
  refine (edNorm_sat H hz h hn ht).bind fun s1 ⟨M1, r1, d1⟩ => ?_
  have he1 : EEch M1 top left p := he.change (fun i hi => d1.ne (by rintro rfl; simp at hi)) fun i j hi hj => by
    rw [d1.zero_iff]; exact he.below i j hi hj
  have hne1 : M1 ⟨top, ht⟩ ⟨left, hl⟩ ≠ 0 := by rw [Ne, d1.zero_iff]; exact hne
  have hp1 : PrimRow (M1 ⟨top, ht⟩) := d1.prim
  refine (get_sat (r1.mat.at ht hl)).bind fun lead hlead => ?_
  refine (neq_sat H.eqRef hlead hz).bind fun d hd => ?_
  rw [if_pos (hd.mpr hne1), r1.mat.shape.nr]
  refine (forUp_sat (fun c st => ∃ M', EDRel K rep M0 st M' ∧ EEch M' top left p ∧
    M' ⟨top, ht⟩ = M1 ⟨top, ht⟩ ∧
    ∀ i : Fin m, top < (i : ℕ) → (i : ℕ) < c → M' i ⟨left, hl⟩ = 0) (by omega) ⟨M1, r1, he1, rfl, fun i h h' => by omega⟩ ?_).mono
    fun r ⟨M', g1, g2, g3, g4⟩ => ⟨M', g1, g2.advance ht hl (by rw [g3]; exact hne1) (fun i hi => g4 i hi i.2) (by rw [g3]; exact hp1)⟩
  rintro c st' hc1 hc2 ⟨M', g1, g2, g3, g4⟩
  refine (edStep_sat H hz g1 ht hl hc2 (by omega) (by rw [g3]; exact hlead) (by rw [g3]; exact hne1) g2).mono
    fun r ⟨M'', q1, q2, q3, q4⟩ => ⟨M'', q1, q2, ?_, fun i hi1 hi2 => ?_⟩
  · rw [q3 _ (by simp; omega), g3]
  · by_cases hic : (i : ℕ) = c
    · have : i = ⟨c, hc2⟩ := Fin.ext hic
      rw [this]; exact q4
    · rw [q3 i hic]; exact g4 i hi1 (by omega)

theorem edLoop_sat (H : EDRef U O rep wrep) {zero : α} (hz : rep zero 0) {M0 : Matrix (Fin m) (Fin n) R} :
    ∀ k (st : EDSt α) (M : Matrix (Fin m) (Fin n) R) top left p, EDRel K rep M0 st M → EEch M top left p → n ≤ k + left →
      (TMat.edLoop O zero k st top left).Sat U (fun r => ∃ M', EDRel K rep M0 r M' ∧ ∃ rk p', IsEch M' rk p')
  | 0, st, M, top, left, p, h, he, hk => by
    unfold TMat.edLoop
    rw [h.mat.shape.nr, h.mat.shape.nc, if_neg (by omega), Sat_ok]
    exact ⟨M, h, _, _, he.final (by omega)⟩
  | k + 1, st, M, top, left, p, h, he, hk => by
    unfold TMat.edLoop
    rw [h.mat.shape.nr, h.mat.shape.nc]
    by_cases hc : top < m ∧ left < n
    · rw [if_pos hc]
      refine (findPivot_sat H.eqRef h.mat hz hc.2 (m - top) top (by omega)).bind fun r hr => ?_
      cases r with
      | none => exact edLoop_sat H hz k st M top (left + 1) p h (he.skip hc.2 hr) (by omega)
      | some q =>
        obtain ⟨h1, h2, h3⟩ := hr
        refine (edSwap_sat H hz h he hc.1 h2 h1 hc.2 h3).bind fun st ⟨M1, g1, g2, g3⟩ => ?_
        refine (edClear_sat H hz g1 hc.1 hc.2 g3 g2).bind fun st ⟨M2, g4, g5⟩ => ?_
        exact edLoop_sat H hz k st M2 (top + 1) (left + 1) _ g4 g5 (by omega)
    · rw [if_neg hc, Sat_ok]
      exact ⟨M, h, _, _, he.final hc⟩

theorem ed_find_one_sat (H : EDRef U O rep wrep) {A : TMat α} {M : Matrix (Fin m) (Fin n) R} (hm : 0 < m) (hn : 0 < n)
    (hA : MRep rep A M) : (TMat.find_one O.toTOps A).Sat U (fun r => match r with
      | none => M = 0
      | some x => M ≠ 0 ∧ rep x 1) := by
  unfold TMat.find_one
  refine (get_sat (hA.at hm hn)).bind fun a ha => ?_
  refine (H.sub (H.weak ha) (H.weak ha)).bind fun z hz => ?_
  rw [sub_self] at hz
  rw [hA.shape.nr]
  refine (nonzeroIn_sat H.eqRef hA hz m 0 rfl).bind fun r hr => ?_
  cases r with
  | none => exact funext fun i => hr i (Nat.zero_le _)
  | some x =>
    obtain ⟨i, j, h1, h2⟩ := hr
    refine (H.div (q := 1) (by rw [mul_one]; exact H.weak h2) h2 h1).bind fun one hone => ?_
    rw [Sat_ok]
    exact ⟨fun h => h1 (by rw [h]; rfl), hone⟩

/-- Elimination of a non-zero matrix. -/
theorem ed_rrs_sat (K : Type) [Field K] [Algebra R K] [IsFractionRing R K] (H : EDRef U O rep wrep) {A : TMat α}
    {M : Matrix (Fin m) (Fin n) R} (hm : 0 < m) (hn : 0 < n) (hA : MRep rep A M) (hM : M ≠ 0) (sn sd : α) :
    (TMat.ed_row_reduce_below_with_scalar O A sn sd).Sat U (fun r => ∃ M', EDRel K rep M r M' ∧ ∃ rk p, IsEch M' rk p) := by
  unfold TMat.ed_row_reduce_below_with_scalar
  refine (get_sat (hA.at hm hn)).bind fun a ha => ?_
  refine (H.sub (H.weak ha) (H.weak ha)).bind fun z hz => ?_
  rw [sub_self] at hz
  refine (ed_find_one_sat H hm hn hA).bind fun o ho => ?_
  cases o with
  | none => exact absurd ho hM
  | some one =>
    rw [hA.shape.nc]
    exact edLoop_sat H hz n _ M 0 0 id ⟨hA, 1, 1, ho.2, ho.2, one_ne_zero, one_ne_zero, by simpa using RowEq.refl _⟩
      (EEch.init _ _) (by omega)

theorem prod_step (f : Fin n → R) {i : ℕ} (hi : i < n) :
    (∏ j : Fin n, if (j : ℕ) < i + 1 then f j else 1) = (∏ j : Fin n, if (j : ℕ) < i then f j else 1) * f ⟨i, hi⟩ := by
  have : ∀ j : Fin n, (if (j : ℕ) < i + 1 then f j else 1) = (if (j : ℕ) < i then f j else 1) * if j = ⟨i, hi⟩ then f j else 1 := by
    intro j
    by_cases h1 : (j : ℕ) < i
    · rw [if_pos (by omega), if_pos h1, if_neg (by rintro rfl; simp at h1), mul_one]
    · by_cases h2 : j = ⟨i, hi⟩
      · subst h2; simp
      · rw [if_neg, if_neg h1, if_neg h2, mul_one]
        intro h; exact h2 (Fin.ext (by simp; omega))
  rw [Finset.prod_congr rfl fun j _ => this j, Finset.prod_mul_distrib]; simp

theorem ed_det_sat (H : EDRef U O rep wrep) {A : TMat α} {M : Matrix (Fin n) (Fin n) R} (hn : 0 < n) (hA : MRep rep A M)
    (hM : M ≠ 0) : (TMat.ed_det O A).Sat U (fun r => rep r M.det) := by
  unfold TMat.ed_det TMat.is_square
  rw [hA.shape.nr, hA.shape.nc]
  simp only [beq_self_eq_true, Bool.not_true, Bool.false_eq_true, if_false]
  refine (ed_rrs_sat (FractionRing R) H hn hn hA hM _ _).bind fun r ⟨M', ⟨hB, x, y, hx, hy, hx0, hy0, P, hP, hPM⟩, rk, p, he⟩ => ?_
  have hdet : y * M.det = x * ∏ j, M' j j := by
    rw [← he.det_eq]
    have h1 : (algebraMap R (FractionRing R)) M'.det = P.det * (algebraMap R (FractionRing R)) M.det := by
      have := congrArg Matrix.det hPM
      rw [Matrix.det_mul] at this
      simpa [fr, RingHom.map_det] using this
    have hy1 := am_ne (FractionRing R) hy0
    have h2 : (algebraMap R (FractionRing R)) x * P.det = (algebraMap R (FractionRing R)) y := by
      field_simp at hP; linear_combination hP
    apply IsFractionRing.injective R (FractionRing R)
    rw [map_mul, map_mul, h1]
    linear_combination -(algebraMap R (FractionRing R)) M.det * h2
  refine (forUp_sat (fun i d => (rep d (x * ∏ j : Fin n, if (j : ℕ) < i then M' j j else 1) ∧
      (x * ∏ j : Fin n, if (j : ℕ) < i then M' j j else 1) ≠ 0) ∨
      (wrep d (x * ∏ j : Fin n, if (j : ℕ) < i then M' j j else 1) ∧ ∀ j : Fin n, i ≤ (j : ℕ) → M' j j = 0)) (Nat.zero_le _)
      (Or.inl ⟨by simpa using hx, by simpa using hx0⟩) ?_).bind fun dn hdn => ?_
  · intro i d _ hi hd
    refine (get_sat (hB.at hi hi)).bind fun e he' => ?_
    rw [prod_step _ hi, ← mul_assoc]
    by_cases hz : M' ⟨i, hi⟩ ⟨i, hi⟩ = 0
    · refine (H.mulw (y := M' ⟨i, hi⟩ ⟨i, hi⟩) (hd.imp (fun h => h.1) fun h => ⟨h.1, hz⟩) he').mono fun r hr => Or.inr ⟨hr, fun j hj => ?_⟩
      exact he.diag_zero (i := ⟨i, hi⟩) (by simp [Fin.le_def]; omega) hz
    · rcases hd with ⟨h1, h2⟩ | ⟨_, h2⟩
      · exact (H.mul h1 he' (mul_ne_zero h2 hz)).mono fun r hr => Or.inl ⟨hr, mul_ne_zero h2 hz⟩
      · exact absurd (h2 ⟨i, hi⟩ le_rfl) hz
  · have e : (∏ j : Fin n, if (j : ℕ) < n then M' j j else 1) = ∏ j, M' j j := Finset.prod_congr rfl fun j _ => by simp
    rw [e, ← hdet] at hdn
    have hw : wrep dn (y * M.det) := hdn.elim (fun h => H.weak h.1) fun h => h.1
    refine (H.sub hw hw).bind fun z hz => ?_
    rw [sub_self] at hz
    refine (H.mod hw hy hy0).bind fun rm hrm => ?_
    refine (H.div hw hy hy0).bind fun q hq => ?_
    refine (neq_sat H.eqRef hrm hz).bind fun d hd => ?_
    have : d = false := by cases d with | true => exact absurd rfl (hd.mp rfl) | false => rfl
    rw [this]
    simpa using hq

/-- On the zero matrix the denominator keeps its default-constructed value. -/
theorem ed_rrs_zero (H : EDRef U O rep wrep) {A : TMat α} (hm : 0 < m) (hn : 0 < n) (hA : MRep rep A (0 : Matrix (Fin m) (Fin n) R))
    (sn sd : α) : (TMat.ed_row_reduce_below_with_scalar O A sn sd).Sat U (fun r => r.A = A ∧ rep r.sn 0 ∧ r.sd = sd) := by
  unfold TMat.ed_row_reduce_below_with_scalar
  refine (get_sat (hA.at hm hn)).bind fun a ha => ?_
  refine (H.sub (H.weak ha) (H.weak ha)).bind fun z hz => ?_
  rw [sub_self] at hz
  refine (ed_find_one_sat H hm hn hA).bind fun o ho => ?_
  cases o with
  | none => exact ⟨rfl, hz, rfl⟩
  | some one => exact absurd rfl ho.1

theorem ed_det_zero (H : EDRef U O rep wrep) {A : TMat α} (hn : 0 < n) (hA : MRep rep A (0 : Matrix (Fin n) (Fin n) R))
    (hd : ∀ a, wrep a 0 → (O.mod a O.dflt).Throws U) : (TMat.ed_det O A).Throws U := by
  unfold TMat.ed_det TMat.is_square
  rw [hA.shape.nr, hA.shape.nc]
  simp only [beq_self_eq_true, Bool.not_true, Bool.false_eq_true, if_false]
  refine (ed_rrs_zero H hn hn hA _ _).throws_bind fun r ⟨h1, h2, h3⟩ => ?_
  rw [h1, h3]
  refine (forUp_sat (fun _ d => wrep d 0) (Nat.zero_le _) (H.weak h2) ?_).throws_bind fun dn hdn => ?_
  · intro i d _ hi hd
    refine (get_sat (hA.at hi hi)).bind fun e he => ?_
    exact (H.mulw (y := 0) (Or.inr ⟨hd, rfl⟩) he).mono fun r hr => by simpa using hr
  refine (H.sub hdn hdn).throws_bind fun z _ => ?_
  exact (hd dn hdn).bind

end Spffl
