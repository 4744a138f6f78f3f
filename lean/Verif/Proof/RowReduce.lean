/-
Row reduction, rank, determinant of tmatrix over a field.
-/
import Verif.Proof.TMatrix
import Verif.Base.Echelon

namespace Spffl
open Res

/-! ### the elimination invariant -/

/-- Rows above `top` are finished (leading ones in columns `p i < left`), rows from `top` on are zero in the
columns before `left`. -/
structure Ech {F : Type} [CommRing F] {m n : ℕ} (B : Matrix (Fin m) (Fin n) F) (top left : ℕ) (p : ℕ → ℕ) : Prop where
  htop : top ≤ m
  hleft : left ≤ n
  mono : ∀ i j, i < j → j < top → p i < p j
  lt : ∀ i, i < top → p i < left
  one : ∀ (i : Fin m) (j : Fin n), (i : ℕ) < top → (j : ℕ) = p i → B i j = 1
  left0 : ∀ (i : Fin m) (j : Fin n), (i : ℕ) < top → (j : ℕ) < p i → B i j = 0
  below : ∀ (i : Fin m) (j : Fin n), top ≤ (i : ℕ) → (j : ℕ) < left → B i j = 0

namespace Ech
variable {F : Type} [CommRing F] {m n : ℕ} {B : Matrix (Fin m) (Fin n) F} {top left : ℕ} {p : ℕ → ℕ}

theorem init (B : Matrix (Fin m) (Fin n) F) (p : ℕ → ℕ) : Ech B 0 0 p :=
  ⟨by omega, by omega, fun _ _ _ h => by omega, fun _ h => by omega, fun _ _ h => by omega, fun _ _ h => by omega,
    fun _ _ _ h => by omega⟩

theorem final (h : Ech B top left p) (hd : ¬ (top < m ∧ left < n)) :
    IsEchelon B top (fun i => ⟨p i, (h.lt i i.2).trans_le h.hleft⟩) where
  le := h.htop
  mono := fun i j hij => h.mono i j hij j.2
  zero := fun i hi => by
    have := h.htop; have := h.hleft; have := i.2
    exact funext fun j => h.below i j hi (by have := j.2; omega)
  one := fun i => h.one _ _ i.2 rfl
  left := fun i j hj => h.left0 _ _ i.2 hj

theorem skip (h : Ech B top left p) (hl : left < n) (hz : ∀ (i : Fin m), top ≤ (i : ℕ) → B i ⟨left, hl⟩ = 0) :
    Ech B top (left + 1) p where
  htop := h.htop
  hleft := hl
  mono := h.mono
  lt := fun i hi => (h.lt i hi).trans (by omega)
  one := h.one
  left0 := h.left0
  below := fun i j hi hj => by
    by_cases hj' : (j : ℕ) < left
    · exact h.below i j hi hj'
    · have : j = ⟨left, hl⟩ := Fin.ext (by simp; omega)
      rw [this]; exact hz i hi

/-- any change to the rows from `top` on that keeps them zero before `left` -/
theorem change (h : Ech B top left p) {B' : Matrix (Fin m) (Fin n) F} (h1 : ∀ i : Fin m, (i : ℕ) < top → B' i = B i)
    (h2 : ∀ (i : Fin m) (j : Fin n), top ≤ (i : ℕ) → (j : ℕ) < left → B' i j = 0) : Ech B' top left p where
  htop := h.htop
  hleft := h.hleft
  mono := h.mono
  lt := h.lt
  one := fun i j hi => by rw [h1 i hi]; exact h.one i j hi
  left0 := fun i j hi => by rw [h1 i hi]; exact h.left0 i j hi
  below := h2

theorem advance (h : Ech B top left p) (ht : top < m) (hl : left < n) (h1 : B ⟨top, ht⟩ ⟨left, hl⟩ = 1)
    (h2 : ∀ i : Fin m, top < (i : ℕ) → B i ⟨left, hl⟩ = 0) :
    Ech B (top + 1) (left + 1) (Function.update p top left) where
  htop := ht
  hleft := hl
  mono := fun i j hij hj => by
    by_cases hjt : j = top
    · subst hjt
      rw [Function.update_of_ne (by omega), Function.update_self]
      exact h.lt i hij
    · rw [Function.update_of_ne (by omega), Function.update_of_ne hjt]
      exact h.mono i j hij (by omega)
  lt := fun i hi => by
    by_cases hit : i = top
    · subst hit; simp
    · rw [Function.update_of_ne hit]
      exact (h.lt i (by omega)).trans (by omega)
  one := fun i j hi hj => by
    by_cases hit : (i : ℕ) = top
    · rw [hit, Function.update_self] at hj
      have e1 : i = ⟨top, ht⟩ := Fin.ext hit
      have e2 : j = ⟨left, hl⟩ := Fin.ext hj
      rw [e1, e2]; exact h1
    · rw [Function.update_of_ne hit] at hj
      exact h.one i j (by omega) hj
  left0 := fun i j hi hj => by
    by_cases hit : (i : ℕ) = top
    · rw [hit, Function.update_self] at hj
      exact h.below i j (by omega) hj
    · rw [Function.update_of_ne hit] at hj
      exact h.left0 i j (by omega) hj
  below := fun i j hi hj => by
    by_cases hj' : (j : ℕ) < left
    · exact h.below i j (by omega) hj'
    · have : j = ⟨left, hl⟩ := Fin.ext (by simp; omega)
      rw [this]; exact h2 i (by omega)

end Ech

section
variable {U : Prop} {α R : Type} [CommRing R] {O : TOps α} {rep : α → R → Prop} {m n : ℕ}

theorem swap_sat {A : TMat α} {M : Matrix (Fin m) (Fin n) R} (hA : MRep rep A M) {a b : ℕ} (ha : a < m) (hb : b < m) :
    (A.swap a b).Sat U (fun B => MRep rep B (M.submatrix (Equiv.swap ⟨a, ha⟩ ⟨b, hb⟩) id)) := by
  unfold TMat.swap
  obtain ⟨x, hx, hxr⟩ := hA.rowRep ha
  obtain ⟨y, hy, hyr⟩ := hA.rowRep hb
  have e1 : rd A.rows a = ok x := by unfold rd; rw [hx]
  have e2 : rd A.rows b = ok y := by unfold rd; rw [hy]
  rw [e1, e2]
  simp only [ok_bind]
  rw [if_neg (by rw [hxr.1, hyr.1]; simp), wr_ok (hA.shape.len ha)]
  simp only [ok_bind]
  rw [wr_ok (by simpa using hA.shape.len hb)]
  simp only [ok_bind, Sat_ok]
  have s1 := (hA.setRow ha hyr)
  have s2 := (s1.setRow hb hxr)
  refine cast ?_ s2
  congr 1
  ext i j
  simp only [Matrix.submatrix_apply, id_eq]
  by_cases hib : i = ⟨b, hb⟩
  · subst hib; simp
  · rw [Matrix.updateRow_ne hib]
    by_cases hia : i = ⟨a, ha⟩
    · subst hia; simp
    · rw [Matrix.updateRow_ne hia, Equiv.swap_apply_of_ne_of_ne hia hib]

theorem findPivot_sat (H : EqRef U O rep) {A : TMat α} {M : Matrix (Fin m) (Fin n) R} (hA : MRep rep A M) {zero : α}
    (hz : rep zero 0) {col : ℕ} (hc : col < n) : ∀ k p, k + p = m → (TMat.findPivot O A zero col k p).Sat U (fun r => match r with
      | none => ∀ i : Fin m, p ≤ (i : ℕ) → M i ⟨col, hc⟩ = 0
      | some q => p ≤ q ∧ ∃ hq : q < m, M ⟨q, hq⟩ ⟨col, hc⟩ ≠ 0)
  | 0, p, h => by unfold TMat.findPivot; simp only [Sat_ok]; intro i hi; have := i.2; omega
  | k + 1, p, h => by
    unfold TMat.findPivot
    have hp : p < m := by omega
    refine (raw_sat (hA.at hp hc)).bind fun e he => ?_
    refine (neq_sat H he hz).bind fun d hd => ?_
    cases d with
    | true =>
      simp only [if_true, Sat_ok]
      exact ⟨le_rfl, hp, hd.mp rfl⟩
    | false =>
      have hx : M ⟨p, hp⟩ ⟨col, hc⟩ = 0 := by
        by_contra hne; simpa using hd.mpr hne
      simp only [Bool.false_eq_true, if_false]
      refine (findPivot_sat H hA hz hc k (p + 1) (by omega)).mono fun r hr => ?_
      cases r with
      | none =>
        intro i hi
        by_cases h' : p + 1 ≤ (i : ℕ)
        · exact hr i h'
        · have : i = ⟨p, hp⟩ := Fin.ext (by simp; omega)
          rw [this]; exact hx
      | some q => exact ⟨by have := hr.1; omega, hr.2⟩

theorem nonzeroInRow_sat (H : EqRef U O rep) {A : TMat α} {M : Matrix (Fin m) (Fin n) R} (hA : MRep rep A M) {zero : α}
    (hz : rep zero 0) {i : ℕ} (hi : i < m) : ∀ k j, k + j = n → (TMat.nonzeroInRow O A zero i k j).Sat U (fun r => match r with
      | none => ∀ l : Fin n, j ≤ (l : ℕ) → M ⟨i, hi⟩ l = 0
      | some x => ∃ l, M ⟨i, hi⟩ l ≠ 0 ∧ rep x (M ⟨i, hi⟩ l))
  | 0, j, h => by unfold TMat.nonzeroInRow; simp only [Sat_ok]; intro l hl; have := l.2; omega
  | k + 1, j, h => by
    unfold TMat.nonzeroInRow
    have hj : j < n := by omega
    refine (get_sat (hA.at hi hj)).bind fun e he => ?_
    refine (neq_sat H he hz).bind fun d hd => ?_
    cases d with
    | true =>
      simp only [if_true, Sat_ok]
      exact ⟨_, hd.mp rfl, he⟩
    | false =>
      have hx : M ⟨i, hi⟩ ⟨j, hj⟩ = 0 := by
        by_contra hne; simpa using hd.mpr hne
      simp only [Bool.false_eq_true, if_false]
      refine (nonzeroInRow_sat H hA hz hi k (j + 1) (by omega)).mono fun r hr => ?_
      cases r with
      | none =>
        intro l hl
        by_cases h' : j + 1 ≤ (l : ℕ)
        · exact hr l h'
        · have : l = ⟨j, hj⟩ := Fin.ext (by simp; omega)
          rw [this]; exact hx
      | some q => exact hr

theorem nonzeroIn_sat (H : EqRef U O rep) {A : TMat α} {M : Matrix (Fin m) (Fin n) R} (hA : MRep rep A M) {zero : α}
    (hz : rep zero 0) : ∀ k i, k + i = m → (TMat.nonzeroIn O A zero k i).Sat U (fun r => match r with
      | none => ∀ l : Fin m, i ≤ (l : ℕ) → M l = 0
      | some x => ∃ i j, M i j ≠ 0 ∧ rep x (M i j))
  | 0, i, h => by unfold TMat.nonzeroIn; simp only [Sat_ok]; intro l hl; have := l.2; omega
  | k + 1, i, h => by
    unfold TMat.nonzeroIn
    have hi : i < m := by omega
    rw [hA.shape.nc]
    refine (nonzeroInRow_sat H hA hz hi n 0 rfl).bind fun r hr => ?_
    cases r with
    | some x => obtain ⟨l, h1, h2⟩ := hr; exact ⟨_, _, h1, h2⟩
    | none =>
      refine (nonzeroIn_sat H hA hz k (i + 1) (by omega)).mono fun r hr' => ?_
      cases r with
      | some x => exact hr'
      | none =>
        intro l hl
        by_cases h' : i + 1 ≤ (l : ℕ)
        · exact hr' l h'
        · have : l = ⟨i, hi⟩ := Fin.ext (by simp; omega)
          rw [this]; exact funext fun j => hr j (by omega)

end

section
variable {U : Prop} {α F : Type} [CommRing F] {O : TOps α} {rep : α → F → Prop} {m n : ℕ}

/-- state of the elimination: `A` holds a matrix row equivalent to `M0`, with scalar `s` -/
def RState (rep : α → F → Prop) (M0 : Matrix (Fin m) (Fin n) F) (st : TMat α × α) (M : Matrix (Fin m) (Fin n) F) : Prop :=
  MRep rep st.1 M ∧ ∃ s, rep st.2 s ∧ RowEq M0 M s

theorem pivotSwap_sat (H : EltRef U O rep) {A : TMat α} {s minus_one : α} {M0 M : Matrix (Fin m) (Fin n) F}
    (h : RState rep M0 (A, s) M) (hmo : rep minus_one (0 - 1)) {top piv left : ℕ} {p : ℕ → ℕ} (he : Ech M top left p) (ht : top < m)
    (hp : piv < m) (htp : top ≤ piv) (hl : left < n) (hne : M ⟨piv, hp⟩ ⟨left, hl⟩ ≠ 0) :
    (TMat.pivotSwap O A s minus_one top piv).Sat U (fun r => ∃ M', RState rep M0 r M' ∧ Ech M' top left p ∧ M' ⟨top, ht⟩ ⟨left, hl⟩ ≠ 0) := by
  obtain ⟨hA, x, hs, hR⟩ := h
  unfold TMat.pivotSwap
  by_cases heq : top = piv
  · subst heq
    rw [if_neg (by simp), Sat_ok]
    exact ⟨M, ⟨hA, x, hs, hR⟩, he, hne⟩
  · rw [if_pos heq]
    refine (swap_sat hA ht hp).bind fun B hB => ?_
    refine (H.mul hs hmo).bind fun s' hs' => ?_
    rw [Sat_ok]
    refine ⟨_, ⟨hB, _, hs', hR.swap (by simpa [Fin.ext_iff] using heq)⟩, he.change (fun i hi => ?_) (fun i j hi hj => ?_), ?_⟩
    · ext j
      simp only [Matrix.submatrix_apply, id_eq]
      rw [Equiv.swap_apply_of_ne_of_ne (by rintro rfl; simp at hi) (by rintro rfl; simp at hi; omega)]
    · simp only [Matrix.submatrix_apply, id_eq]
      refine he.below _ _ ?_ hj
      by_cases h1 : i = ⟨top, ht⟩
      · subst h1; simpa using htp
      · by_cases h2 : i = ⟨piv, hp⟩
        · subst h2; simp
        · rw [Equiv.swap_apply_of_ne_of_ne h1 h2]; exact hi
    · simpa using hne

theorem clearBelow_sat (H : EltRef U O rep) {A : TMat α} {s lead : α} {M0 M : Matrix (Fin m) (Fin n) F}
    (h : RState rep M0 (A, s) M) (hlead : rep lead 1) {top left : ℕ} {p : ℕ → ℕ} (he : Ech M top left p) (ht : top < m)
    (hl : left < n) (h1 : M ⟨top, ht⟩ ⟨left, hl⟩ = 1) :
    (TMat.clearBelow O A s lead top left).Sat U (fun r => ∃ M', RState rep M0 r M' ∧
      Ech M' (top + 1) (left + 1) (Function.update p top left)) := by
  unfold TMat.clearBelow
  rw [h.1.shape.nr]
  refine (forUp_sat (fun c st => ∃ M', RState rep M0 st M' ∧ Ech M' top left p ∧ M' ⟨top, ht⟩ ⟨left, hl⟩ = 1 ∧
    ∀ i : Fin m, top < (i : ℕ) → (i : ℕ) < c → M' i ⟨left, hl⟩ = 0) (by omega) ⟨M, h, he, h1, fun i h h' => by omega⟩ ?_).mono
    fun r ⟨M', g1, g2, g3, g4⟩ => ⟨M', g1, g2.advance ht hl g3 fun i hi => g4 i hi i.2⟩
  intro c st hc1 hc2 ⟨M', ⟨hA, x, hs, hR⟩, g2, g3, g4⟩
  refine (raw_sat (hA.at hc2 hl)).bind fun cl hcl => ?_
  have hct : (⟨c, hc2⟩ : Fin m) ≠ ⟨top, ht⟩ := by simp [Fin.ext_iff]; omega
  refine (setRow_sat (x := (1 : F) • M' ⟨c, hc2⟩ - M' ⟨c, hc2⟩ ⟨left, hl⟩ • M' ⟨top, ht⟩) hA hc2 ?_).bind fun B hB => ?_
  · refine (rd_sat (hA.rowRep hc2)).bind fun v hv => ?_
    refine (rd_sat (hA.rowRep ht)).bind fun t ht => ?_
    exact accum_sat H hv ht hlead hcl
  refine (H.div hs hlead (mul_one 1)).bind fun s' hs' => ?_
  rw [mul_one] at hs'
  rw [Sat_ok]
  refine ⟨_, ⟨hB, x, hs', ?_⟩, g2.change (fun i hi => ?_) (fun i j hi hj => ?_), ?_, fun i hi1 hi2 => ?_⟩
  · rw [one_smul, sub_eq_add_neg, ← neg_smul]
    exact hR.addRow hct _
  · rw [Matrix.updateRow_ne (by rintro rfl; simp at hi; omega)]
  · by_cases hic : i = ⟨c, hc2⟩
    · subst hic
      simp [g2.below _ j hi hj, g2.below ⟨top, ht⟩ j le_rfl hj]
    · rw [Matrix.updateRow_ne hic]; exact g2.below i j hi hj
  · rw [Matrix.updateRow_ne (Ne.symm hct)]; exact g3
  · by_cases hic : i = ⟨c, hc2⟩
    · subst hic; simp [g3]
    · rw [Matrix.updateRow_ne hic]
      exact g4 i hi1 (by have : (i : ℕ) ≠ c := fun h => hic (Fin.ext h); omega)

theorem normClear_unit (H : EltRef U O rep) {A : TMat α} {s zero one : α} {M0 M : Matrix (Fin m) (Fin n) F}
    (h : RState rep M0 (A, s) M) (hz : rep zero 0) (ho : rep one 1) {top left : ℕ} {p : ℕ → ℕ} (he : Ech M top left p) (ht : top < m)
    (hl : left < n) (hne : M ⟨top, ht⟩ ⟨left, hl⟩ ≠ 0) {z : F} (hyz : M ⟨top, ht⟩ ⟨left, hl⟩ * z = 1) :
    (TMat.normClear O A s zero one top left).Sat U (fun r => ∃ M', RState rep M0 r M' ∧
      Ech M' (top + 1) (left + 1) (Function.update p top left)) := by
  obtain ⟨hA, x, hs, hR⟩ := h
  unfold TMat.normClear
  refine (raw_sat (hA.at ht hl)).bind fun lead hlead => ?_
  refine (ne_sat H hlead hz).bind fun d hd => ?_
  rw [if_pos (hd.mpr hne)]
  refine (H.div ho hlead hyz).bind fun inv hinv => ?_
  rw [one_mul] at hinv
  refine (setRow_sat (x := z • M ⟨top, ht⟩) hA ht ?_).bind fun B hB => ?_
  · refine (rd_sat (hA.rowRep ht)).bind fun v hv => ?_
    exact mult_by_sat H hv hinv
  refine (H.mul hs hlead).bind fun s' hs' => ?_
  refine (raw_sat (hB.at ht hl)).bind fun lead' hlead' => ?_
  have e1 : (M.updateRow ⟨top, ht⟩ (z • M ⟨top, ht⟩)) ⟨top, ht⟩ ⟨left, hl⟩ = 1 := by
    rw [Matrix.updateRow_self, Pi.smul_apply, smul_eq_mul, mul_comm, hyz]
  rw [e1] at hlead'
  refine clearBelow_sat H ⟨hB, _, hs', hR.scale _ hyz⟩ hlead' (he.change (fun i hi => ?_) (fun i j hi hj => ?_)) ht hl e1
  · rw [Matrix.updateRow_ne (by rintro rfl; simp at hi)]
  · by_cases hic : i = ⟨top, ht⟩
    · subst hic; simp [he.below _ j hi hj]
    · rw [Matrix.updateRow_ne hic]; exact he.below i j hi hj

end

variable {U : Prop} {α F : Type} [Field F] {O : TOps α} {rep : α → F → Prop} {m n : ℕ}

theorem fdiv_sat (H : EltRef U O rep) {a b : α} {x y : F} (ha : rep a x) (hb : rep b y) (hy : y ≠ 0) :
    (O.div a b).Sat U (fun r => rep r (x / y)) := by
  rw [div_eq_mul_inv]; exact H.div ha hb (mul_inv_cancel₀ hy)

theorem normClear_sat (H : EltRef U O rep) {A : TMat α} {s zero one : α} {M0 M : Matrix (Fin m) (Fin n) F}
    (h : RState rep M0 (A, s) M) (hz : rep zero 0) (ho : rep one 1) {top left : ℕ} {p : ℕ → ℕ} (he : Ech M top left p) (ht : top < m)
    (hl : left < n) (hne : M ⟨top, ht⟩ ⟨left, hl⟩ ≠ 0) :
    (TMat.normClear O A s zero one top left).Sat U (fun r => ∃ M', RState rep M0 r M' ∧
      Ech M' (top + 1) (left + 1) (Function.update p top left)) := by
  exact normClear_unit H h hz ho he ht hl hne (mul_inv_cancel₀ hne)

theorem rrLoop_sat (H : EltRef U O rep) {zero one minus_one : α} (hz : rep zero 0) (ho : rep one 1) (hmo : rep minus_one (0 - 1))
    {M0 : Matrix (Fin m) (Fin n) F} :
    ∀ k (A : TMat α) (s : α) (M : Matrix (Fin m) (Fin n) F) top left p, RState rep M0 (A, s) M → Ech M top left p → n ≤ k + left →
      (TMat.rrLoop O zero one minus_one k A s top left).Sat U (fun r => ∃ M', RState rep M0 r M' ∧ ∃ rk p', IsEchelon M' rk p')
  | 0, A, s, M, top, left, p, h, he, hk => by
    unfold TMat.rrLoop
    rw [h.1.shape.nr, h.1.shape.nc, if_neg (by omega), Sat_ok]
    exact ⟨M, h, _, _, he.final (by omega)⟩
  | k + 1, A, s, M, top, left, p, h, he, hk => by
    unfold TMat.rrLoop
    rw [h.1.shape.nr, h.1.shape.nc]
    by_cases hc : top < m ∧ left < n
    · rw [if_pos hc]
      refine (findPivot_sat H.eqRef h.1 hz hc.2 (m - top) top (by omega)).bind fun r hr => ?_
      cases r with
      | none => exact rrLoop_sat H hz ho hmo k A s M top (left + 1) p h (he.skip hc.2 hr) (by omega)
      | some q =>
        obtain ⟨h1, h2, h3⟩ := hr
        refine (pivotSwap_sat H h hmo he hc.1 h2 h1 hc.2 h3).bind fun st hst => ?_
        obtain ⟨M1, g1, g2, g3⟩ := hst
        refine (normClear_sat H g1 hz ho g2 hc.1 hc.2 g3).bind fun st hst => ?_
        obtain ⟨M2, g4, g5⟩ := hst
        exact rrLoop_sat H hz ho hmo k st.1 st.2 M2 (top + 1) (left + 1) _ g4 g5 (by omega)
    · rw [if_neg hc, Sat_ok]
      exact ⟨M, h, _, _, he.final hc⟩

theorem find_one_sat (H : EltRef U O rep) {A : TMat α} {M : Matrix (Fin m) (Fin n) F} (hm : 0 < m) (hn : 0 < n) (hA : MRep rep A M) :
    (TMat.find_one O A).Sat U (fun r => match r with
      | none => M = 0
      | some x => M ≠ 0 ∧ rep x 1) := by
  unfold TMat.find_one
  refine (get_sat (hA.at hm hn)).bind fun a ha => ?_
  refine (H.sub ha ha).bind fun z hz => ?_
  rw [sub_self] at hz
  rw [hA.shape.nr]
  refine (nonzeroIn_sat H.eqRef hA hz m 0 rfl).bind fun r hr => ?_
  cases r with
  | none => exact funext fun i => hr i (Nat.zero_le _)
  | some x =>
    obtain ⟨i, j, h1, h2⟩ := hr
    refine (fdiv_sat H h2 h2 h1).bind fun one hone => ?_
    rw [Sat_ok]
    rw [div_self h1] at hone
    exact ⟨fun h => h1 (by rw [h]; rfl), hone⟩

theorem zero_echelon : IsEchelon (0 : Matrix (Fin m) (Fin n) F) 0 Fin.elim0 :=
  ⟨by omega, fun i => i.elim0, fun _ _ => rfl, fun i => i.elim0, fun i => i.elim0⟩

/-- Row reduction: a row echelon form; the scalar is the determinant factor, except for the zero matrix
where it is 0. -/
theorem rrs_sat (H : EltRef U O rep) {A : TMat α} {M : Matrix (Fin m) (Fin n) F} (hm : 0 < m) (hn : 0 < n) (hA : MRep rep A M) :
    (TMat.row_reduce_below_with_scalar O A).Sat U (fun r => ∃ M', MRep rep r.1 M' ∧ (∃ rk p, IsEchelon M' rk p) ∧ RowEquiv M M' ∧
      ∃ s, rep r.2 s ∧ (M = 0 ∧ s = 0 ∨ RowEq M M' s)) := by
  unfold TMat.row_reduce_below_with_scalar
  refine (get_sat (hA.at hm hn)).bind fun a ha => ?_
  refine (H.sub ha ha).bind fun z hz => ?_
  rw [sub_self] at hz
  refine (find_one_sat H hm hn hA).bind fun o ho => ?_
  cases o with
  | none =>
    have ho : M = 0 := ho
    subst ho
    exact ⟨0, hA, ⟨_, _, zero_echelon⟩, (RowEq.refl _).unit, 0, hz, Or.inl ⟨rfl, rfl⟩⟩
  | some one =>
    refine (H.sub hz ho.2).bind fun mo hmo => ?_
    rw [hA.shape.nc]
    refine (rrLoop_sat H hz ho.2 hmo n A one M 0 0 id ⟨hA, 1, ho.2, RowEq.refl _⟩ (Ech.init _ _) (by omega)).mono
      fun r ⟨M', ⟨h1, s, h2, h3⟩, h4⟩ => ⟨M', h1, h4, h3.unit, s, h2, Or.inr h3⟩

theorem rr_sat (H : EltRef U O rep) {A : TMat α} {M : Matrix (Fin m) (Fin n) F} (hm : 0 < m) (hn : 0 < n) (hA : MRep rep A M) :
    (TMat.row_reduce_below O A).Sat U (fun r => ∃ M', MRep rep r M' ∧ (∃ rk p, IsEchelon M' rk p) ∧ RowEquiv M M') := by
  unfold TMat.row_reduce_below
  refine (rrs_sat H hm hn hA).bind fun r hr => ?_
  obtain ⟨M', h1, h2, h3, _⟩ := hr
  exact ⟨M', h1, h2, h3⟩

theorem det_sat (H : EltRef U O rep) {A : TMat α} {M : Matrix (Fin n) (Fin n) F} (hn : 0 < n) (hA : MRep rep A M) :
    (TMat.det O A).Sat U (fun r => rep r M.det) := by
  unfold TMat.det TMat.is_square
  rw [hA.shape.nr, hA.shape.nc]
  simp only [beq_self_eq_true, Bool.not_true, Bool.false_eq_true, if_false]
  refine (rrs_sat H hn hn hA).bind fun r hr => ?_
  obtain ⟨M', h1, ⟨rk, p, h2⟩, _, s, hs, h3⟩ := hr
  refine (forUp_sat (fun i d => rep d (s * ∏ j : Fin n, if (j : ℕ) < i then M' j j else 1)) (Nat.zero_le _) (by simpa using hs) ?_).mono fun d hd => ?_
  · intro i d _ hi hd
    refine (get_sat (h1.at hi hi)).bind fun x hx => ?_
    refine (H.mul hd hx).mono fun r hr => ?_
    convert hr using 1
    rw [mul_assoc]
    congr 1
    have : ∀ j : Fin n, (if (j : ℕ) < i + 1 then M' j j else 1) = (if (j : ℕ) < i then M' j j else 1) * if j = ⟨i, hi⟩ then M' j j else 1 := by
      intro j
      by_cases h1 : (j : ℕ) < i
      · rw [if_pos (by omega), if_pos h1, if_neg (by rintro rfl; simp at h1), mul_one]
      · by_cases h2 : j = ⟨i, hi⟩
        · subst h2; simp
        · rw [if_neg, if_neg h1, if_neg h2, mul_one]
          intro h; exact h2 (Fin.ext (by simp; omega))
    rw [Finset.prod_congr rfl fun j _ => this j, Finset.prod_mul_distrib]; simp
  · have e : (∏ j : Fin n, if (j : ℕ) < n then M' j j else 1) = M'.det := by
      rw [h2.det_eq]; exact Finset.prod_congr rfl fun j _ => by simp
    rw [e] at hd
    convert hd using 1
    rcases h3 with ⟨h0, hs0⟩ | ⟨P, hP, hM⟩
    · subst h0; haveI := Fin.pos_iff_nonempty.mp hn; rw [hs0, zero_mul, Matrix.det_zero]
    · rw [hM, Matrix.det_mul, ← mul_assoc, hP, one_mul]

theorem rowIsZero_sat (H : EltRef U O rep) {A : TMat α} {M : Matrix (Fin m) (Fin n) F} (hA : MRep rep A M) {zero : α}
    (hz : rep zero 0) {i : ℕ} (hi : i < m) : ∀ k j, k + j = n → (TMat.rowIsZero O A zero i k j).Sat U
      (fun r => r = true ↔ ∀ l : Fin n, j ≤ (l : ℕ) → M ⟨i, hi⟩ l = 0)
  | 0, j, h => by unfold TMat.rowIsZero; simp only [Sat_ok, true_iff]; intro l hl; have := l.2; omega
  | k + 1, j, h => by
    unfold TMat.rowIsZero
    have hj : j < n := by omega
    refine (get_sat (hA.at hi hj)).bind fun e he => ?_
    refine (ne_sat H he hz).bind fun d hd => ?_
    cases d with
    | true =>
      simp only [if_true, Sat_ok, Bool.false_eq_true, false_iff]
      exact fun h => hd.mp rfl (h ⟨j, hj⟩ le_rfl)
    | false =>
      have hx : M ⟨i, hi⟩ ⟨j, hj⟩ = 0 := by
        by_contra hne; simpa using hd.mpr hne
      simp only [Bool.false_eq_true, if_false]
      refine (rowIsZero_sat H hA hz hi k (j + 1) (by omega)).mono fun r hr => hr.trans ⟨fun hh l hl => ?_, fun hh l hl => hh l (by omega)⟩
      by_cases h' : j + 1 ≤ (l : ℕ)
      · exact hh l h'
      · have : l = ⟨j, hj⟩ := Fin.ext (by simp; omega)
        rw [this]; exact hx

theorem rank_rr_sat (H : EltRef U O rep) {A : TMat α} {M : Matrix (Fin m) (Fin n) F} (hm : 0 < m) (hn : 0 < n) (hA : MRep rep A M)
    {rk : ℕ} {p : Fin rk → Fin n} (he : IsEchelon M rk p) : (TMat.get_rank_rr O A).Sat U (fun r => r = rk) := by
  unfold TMat.get_rank_rr
  refine (get_sat (hA.at hm hn)).bind fun a ha => ?_
  refine (H.sub ha ha).bind fun z hz => ?_
  rw [sub_self] at hz
  rw [hA.shape.nr, hA.shape.nc]
  refine (forUp_sat (fun i r => r = min i rk) (Nat.zero_le _) (by simp) ?_).mono fun r hr => by rw [hr]; exact min_eq_right he.le
  intro i r _ hi hr
  refine (rowIsZero_sat H hA hz hi n 0 rfl).bind fun b hb => ?_
  rw [Sat_ok, hr]
  have : b = true ↔ rk ≤ i := by
    rw [hb, ← he.row_eq_zero (i := ⟨i, hi⟩)]
    exact ⟨fun h => funext fun l => h l (Nat.zero_le _), fun h l _ => by rw [h]; rfl⟩
  by_cases hik : rk ≤ i
  · rw [if_pos (this.mpr hik)]; omega
  · rw [if_neg (fun h => hik (this.mp h))]; omega

theorem rank_sat (H : EltRef U O rep) {A : TMat α} {M : Matrix (Fin m) (Fin n) F} (hm : 0 < m) (hn : 0 < n) (hA : MRep rep A M) :
    (TMat.get_rank O A).Sat U (fun r => r = M.rank) := by
  unfold TMat.get_rank
  refine (rr_sat H hm hn hA).bind fun r hr => ?_
  obtain ⟨M', h1, ⟨rk, p, h2⟩, h3⟩ := hr
  refine (rank_rr_sat H hm hn h1 h2).mono fun r hr => ?_
  rw [hr, ← h3.rank, h2.rank_eq]

end Spffl
