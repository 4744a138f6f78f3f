/-
list_elements.cpp: the points of affine and projective space.
-/
import Verif.Proof.Lists3
import Mathlib.Algebra.BigOperators.Fin

set_option linter.unusedSectionVars false

namespace Spffl
open Res Polynomial List
open CPoly (PRep)

namespace Lists
section
variable {α K : Type} {rep : α → K → Prop} {V : Prop}

theorem idiv_nat {a b : ℕ} (ha : a ≤ 2147483647) (hb : 0 < b) : idiv a b = ok ((a / b : ℕ) : Int) := by
  have h1 : (a : Int).tdiv b = ((a / b : ℕ) : Int) := by rw [Int.tdiv_eq_ediv_of_nonneg (by omega), Int.natCast_div]
  have h2 : a / b ≤ a := Nat.div_le_self _ _
  unfold idiv
  generalize a / b = c at h1 h2
  rw [h1, if_neg (by omega), chk_ok (by unfold InInt; omega)]

/-- row `row` of a matrix, entries in columns `lo` to `hi - 1` -/
def RowIs (rep : α → K → Prop) (A : TMat α) (row lo hi : ℕ) (f : ℕ → K) : Prop := ∀ j, lo ≤ j → j < hi → At2 A row j (fun e => rep e (f j))

theorem digitRow_sat {Fq : TVec α} {E : ℕ → K} {q : ℕ} (hq : 0 < q) (hF : ∀ i, i < q → At Fq i (fun e => rep e (E i)))
    {M N row k b : ℕ} {rv : TMat α} (hs : Shape rv M N) (hrow : row < M) (hk : k ≤ N) (hb : b ≤ 2147483647) :
    (digitRow Fq q row k b rv).Sat V fun A => Shape A M N ∧ RowIs rep A row 0 k (fun j => E (b / q ^ (k - 1 - j) % q)) ∧
      ∀ i j, (i ≠ row ∨ k ≤ j) → ent A i j = ent rv i j := by
  unfold digitRow
  refine (forUp_sat (fun j (s : TMat α × Int) => s.2 = ((b / q ^ j : ℕ) : Int) ∧ Shape s.1 M N ∧
      RowIs rep s.1 row (k - j) k (fun j => E (b / q ^ (k - 1 - j) % q)) ∧ ∀ i j, (i ≠ row ∨ k ≤ j) → ent s.1 i j = ent rv i j) (Nat.zero_le k)
      ⟨by simp, hs, fun j h1 h2 => by omega, fun _ _ _ => rfl⟩ fun j s _ hj ⟨h1, h2, h3, h4⟩ => ?_).bind fun s ⟨_, h2, h3, h4⟩ => ?_
  · have hle : b / q ^ j ≤ 2147483647 := (Nat.div_le_self _ _).trans hb
    rw [h1, imod_nonneg_ok (Int.natCast_nonneg _) (by exact_mod_cast hle) (by omega), ok_bind]
    rw [← Int.natCast_mod, Int.toNat_natCast]
    refine (cput_sat h2 hrow (j := k - j - 1) (by omega) (vget_sat (hF _ (Nat.mod_lt _ hq)))).bind fun A ⟨g1, g2, g3⟩ => ?_
    rw [idiv_nat hle hq, ok_bind, Sat_ok]
    refine ⟨by rw [Nat.div_div_eq_div_mul, pow_succ], g1, fun c hc1 hc2 => ?_, fun i c hic => ?_⟩
    · by_cases hcc : c = k - j - 1
      · subst hcc
        convert g2 using 4
        congr 3
        omega
      · exact (h3 c (by omega) hc2).congr (g3 _ _ (Or.inr hcc))
    · show ent A i c = _
      rw [g3 i c (by omega), h4 i c hic]
  · rw [Sat_ok]
    rw [Nat.sub_self] at h3
    exact ⟨h2, h3, h4⟩

theorem fill_shape {d : α} {M N : ℕ} (hM : 0 < M) (hN : 0 < N) : ∃ A, TMat.fill d M N = ok A ∧ Shape A M N := by
  refine ⟨_, by unfold TMat.fill; rw [if_neg (by omega)], ?_⟩
  refine ⟨by simp, by simp, fun i hi => ⟨List.replicate N d, by simp [hi], by simp⟩⟩

/-- row `i` of the listing of affine space -/
def affine (E : ℕ → K) (q n i j : ℕ) : K := E (i / q ^ (n - 1 - j) % q)

theorem an_list_sat {Fqr : Res (TVec α)} {E : ℕ → K} {q n : ℕ} {d : α} (hq : 0 < q) (hpow : PowOk q n) (hn : 0 < n) (hn' : n ≤ 2147483647)
    (hF : Fqr.Sat V fun Fq => ∀ i, i < q → At Fq i (fun e => rep e (E i))) :
    (an_list d q n Fqr).Sat V fun A => MRep rep A (fun (i : Fin (q ^ n)) (j : Fin n) => affine E q n i j) := by
  have hle := hpow.le hq
  unfold an_list
  obtain ⟨A0, h1, h2⟩ := fill_shape (d := d) (M := q ^ n) (N := n) (Nat.pow_pos hq) hn
  rw [int_power_ok hpow hn', ok_bind, h1, ok_bind]
  refine hF.bind fun Fq hF => ?_
  rw [Int.toNat_natCast, Int.toNat_natCast]
  refine (forUp_sat (fun k A => Shape A (q ^ n) n ∧ ∀ i, i < k → RowIs rep A i 0 n (affine E q n i)) (Nat.zero_le _)
    ⟨h2, fun i hi => by omega⟩ fun k A _ hk ⟨g1, g2⟩ => ?_).mono fun A ⟨g1, g2⟩ => ⟨g1, fun i j => g2 i i.2 j (Nat.zero_le _) j.2⟩
  refine (digitRow_sat hq hF g1 hk le_rfl (b := k) (by omega)).mono fun B ⟨b1, b2, b3⟩ => ⟨b1, fun i hi => ?_⟩
  by_cases hik : i = k
  · subst hik; exact b2
  · exact fun j hj1 hj2 => (g2 i (by omega) j hj1 hj2).congr (b3 i j (Or.inl hik))

theorem affine_bij {E : ℕ → K} {q n : ℕ} (hE : Function.Bijective (fun i : Fin q => E i)) :
    Function.Bijective (fun (i : Fin (q ^ n)) (j : Fin n) => affine E q n i j) := by
  have h1 : (fun (i : Fin (q ^ n)) (j : Fin n) => affine E q n i j) =
      ((Equiv.arrowCongr (Fin.revPerm (n := n)) (Equiv.ofBijective _ hE)) ∘ (finFunctionFinEquiv (m := q) (n := n)).symm) := by
    funext i j
    simp only [Function.comp, Equiv.arrowCongr_apply, Equiv.ofBijective_apply, affine]
    have h2 : ∀ (x : Fin (q ^ n)) (y : Fin n), ((finFunctionFinEquiv.symm x y : Fin q) : ℕ) = (x : ℕ) / q ^ (y : ℕ) % q := by
      intro x y
      obtain ⟨f, rfl⟩ := finFunctionFinEquiv.surjective x
      rfl
    rw [h2]
    congr 4
    simp only [Fin.revPerm_symm, Fin.revPerm_apply, Fin.val_rev]
    omega
  rw [h1]
  exact (Equiv.bijective _).comp (Equiv.bijective _)

/-! ### projective space -/
variable [Field K]

/-- row `i` of block `k` of the listing of projective space -/
def proj (E : ℕ → K) (q k i j : ℕ) : K := if j < k then E (i / q ^ (k - 1 - j) % q) else if j = k then 1 else 0

/-- the number of rows before block `k` -/
def before (q k : ℕ) : ℕ := ∑ t ∈ Finset.range k, q ^ t

theorem before_succ (q k : ℕ) : before q (k + 1) = before q k + q ^ k := Finset.sum_range_succ _ _

theorem before_mono (q : ℕ) {k l : ℕ} (h : k ≤ l) : before q k ≤ before q l :=
  Finset.sum_le_sum_of_subset (Finset.range_mono h)

theorem before_le {q k : ℕ} (hq : 2 ≤ q) : before q k ≤ q ^ k := by
  induction k with
  | zero => simp [before]
  | succ k ih =>
    rw [before_succ, pow_succ]
    nlinarith

theorem before_max {q n : ℕ} (hq : 2 ≤ q) (hpow : PowOk q n) : before q (n + 1) ≤ 2147483647 := by
  rcases hpow with rfl | h
  · simp [before]
  · refine (before_le hq).trans (le_trans (Nat.pow_le_pow_right (by omega) ?_) h)
    exact Nat.lt_pow_succ_log_self (by norm_num) n

theorem tailRow_sat {zero one : α} (hz : rep zero 0) (ho : rep one 1) {M n row k : ℕ} {rv : TMat α} (hs : Shape rv M (n + 1)) (hrow : row < M)
    (hk : k ≤ n) :
    (tailRow zero one row k n rv).Sat V fun A => Shape A M (n + 1) ∧
      RowIs rep A row k (n + 1) (fun j => if j = k then 1 else 0) ∧ ∀ i j, (i ≠ row ∨ j < k) → ent A i j = ent rv i j := by
  unfold tailRow
  refine (cput_sat hs hrow (j := k) (by omega) (r := ok one) (P := fun e => rep e 1) ho).bind fun A ⟨g1, g2, g3⟩ => ?_
  refine (forUp_sat (fun j B => Shape B M (n + 1) ∧ RowIs rep B row k j (fun j => if j = k then 1 else 0) ∧
    ∀ i j, (i ≠ row ∨ j < k) → ent B i j = ent rv i j) (by omega) ⟨g1, fun j h1 h2 => ?_, fun i j h => g3 i j (by omega)⟩
    fun j B hj1 hj2 ⟨b1, b2, b3⟩ => ?_)
  · obtain rfl : j = k := by omega
    simpa using g2
  · refine (cput_sat b1 hrow (j := j) (by omega) (r := ok zero) (P := fun e => rep e 0) hz).mono fun D ⟨d1, d2, d3⟩ =>
      ⟨d1, fun c hc1 hc2 => ?_, fun i c h => by rw [d3 i c (by omega), b3 i c h]⟩
    by_cases hcj : c = j
    · subst hcj
      simp only [show c ≠ k by omega, if_false]
      exact d2
    · exact (b2 c hc1 (by omega)).congr (d3 _ _ (Or.inr hcj))

theorem pnBlock_sat {zero one : α} (hz : rep zero 0) (ho : rep one 1) {Fq : TVec α} {E : ℕ → K} {q : ℕ} (hq : 0 < q)
    (hF : ∀ i, i < q → At Fq i (fun e => rep e (E i))) {M n k r0 : ℕ} {rv : TMat α} (hs : Shape rv M (n + 1)) (hk : k ≤ n)
    (hn : n ≤ 2147483647) (hM : r0 + q ^ k ≤ M) (hpow : PowOk q k) :
    (pnBlock zero one Fq q n k (rv, r0)).Sat V fun s => s.2 = r0 + q ^ k ∧ Shape s.1 M (n + 1) ∧
      (∀ i, i < q ^ k → RowIs rep s.1 (r0 + i) 0 (n + 1) (proj E q k i)) ∧
      ∀ i j, (i < r0 ∨ r0 + q ^ k ≤ i) → ent s.1 i j = ent rv i j := by
  have hle := hpow.le hq
  unfold pnBlock
  rw [int_power_ok hpow (by omega), ok_bind, Int.toNat_natCast]
  refine forUp_sat (fun t (s : TMat α × ℕ) => s.2 = r0 + t ∧ Shape s.1 M (n + 1) ∧
      (∀ i, i < t → RowIs rep s.1 (r0 + i) 0 (n + 1) (proj E q k i)) ∧
      ∀ i j, (i < r0 ∨ r0 + t ≤ i) → ent s.1 i j = ent rv i j) (Nat.zero_le _) ⟨rfl, hs, fun i hi => by omega, fun _ _ _ => rfl⟩
    fun t s _ ht ⟨h1, h2, h3, h4⟩ => ?_
  have hr : s.2 < M := by omega
  refine (digitRow_sat hq hF h2 hr (k := k) (by omega) (b := t) (by omega)).bind fun A ⟨a1, a2, a3⟩ => ?_
  refine (tailRow_sat hz ho a1 hr hk).bind fun B ⟨b1, b2, b3⟩ => ?_
  rw [Sat_ok]
  refine ⟨by show s.2 + 1 = _; omega, b1, fun i hi j hj1 hj2 => ?_, fun i j h => ?_⟩
  · by_cases hit : i = t
    · subst hit
      rw [← h1]
      by_cases hjk : j < k
      · have := (a2 j hj1 hjk).congr (b3 s.2 j (Or.inr hjk))
        unfold proj
        simpa only [hjk, if_true] using this
      · have := b2 j (by omega) hj2
        unfold proj
        simpa only [hjk, if_false] using this
    · refine (h3 i (by omega) j hj1 hj2).congr ?_
      show ent B _ _ = _
      rw [b3 _ _ (Or.inl (by omega)), a3 _ _ (Or.inl (by omega))]
  · show ent B i j = _
    rw [b3 i j (Or.inl (by omega)), a3 i j (Or.inl (by omega)), h4 i j (by omega)]

theorem pn_list_sat {Fqr : Res (TVec α)} {E : ℕ → K} {q n : ℕ} {d : α} {zr or : Res α} (hq : 2 ≤ q) (hpow : PowOk q n) (hn' : n < 2147483647)
    (hF : Fqr.Sat V fun Fq => ∀ i, i < q → At Fq i (fun e => rep e (E i))) (hz : zr.Sat V fun z => rep z 0) (ho : or.Sat V fun o => rep o 1) :
    (pn_list d q n Fqr zr or).Sat V fun A => Shape A (before q (n + 1)) (n + 1) ∧
      ∀ k i, k ≤ n → i < q ^ k → RowIs rep A (before q k + i) 0 (n + 1) (proj E q k i) := by
  have hmax := before_max hq hpow
  have hpos : 0 < before q (n + 1) := by
    have h1 := before_mono q (show 1 ≤ n + 1 by omega)
    have h2 : before q 1 = 1 := by simp [before]
    omega
  unfold pn_list
  refine hF.bind fun Fq hF => hz.bind fun zero hz => ho.bind fun one ho => ?_
  have hsum : forUp 0 ((n : Int) + 1).toNat (0 : Int) (fun k oP => do let e ← int_power q (k : Int); iadd oP e) = ok ((before q (n + 1) : ℕ) : Int) := by
    rw [show ((n : Int) + 1).toNat = n + 1 by omega, ← Ok_eq_iff]
    refine forUp_ok (fun k (x : Int) => x = ((before q k : ℕ) : Int)) (Nat.zero_le _) (by simp [before]) fun k x _ hk hx => ?_
    have := before_mono q (show k + 1 ≤ n + 1 by omega)
    rw [before_succ] at this
    rw [int_power_ok (PowOk.mono (by omega) hpow (by omega)) (by omega), ok_bind, hx, iadd, ← Nat.cast_add,
      chk_ok (by unfold InInt; omega), Ok_ok, before_succ]
  have e1 : iadd (n : Int) 1 = ok (((n + 1 : ℕ)) : Int) := by
    rw [iadd, chk_ok (by unfold InInt; omega), Nat.cast_add, Nat.cast_one]
  obtain ⟨A0, h1, h2⟩ := fill_shape (d := d) (M := before q (n + 1)) (N := n + 1) hpos (by omega)
  rw [hsum, ok_bind, e1, ok_bind, h1, ok_bind, show ((n : Int) + 1).toNat = n + 1 by omega, Int.toNat_natCast]
  refine (forUp_sat (fun k (s : TMat α × ℕ) => s.2 = before q k ∧ Shape s.1 (before q (n + 1)) (n + 1) ∧
    ∀ l i, l < k → i < q ^ l → RowIs rep s.1 (before q l + i) 0 (n + 1) (proj E q l i)) (Nat.zero_le _)
    ⟨by simp [before], h2, fun l i hl => by omega⟩ fun k s _ hk ⟨g1, g2, g3⟩ => ?_).bind fun s ⟨g1, g2, g3⟩ => ?_
  · have hb := before_mono q (show k + 1 ≤ n + 1 by omega)
    rw [before_succ] at hb
    obtain ⟨A, r0⟩ := s
    refine (pnBlock_sat hz ho (by omega) hF g2 (k := k) (by omega) (by omega) (by dsimp only at g1; omega)
      (PowOk.mono (by omega) hpow (by omega))).mono fun s ⟨b1, b2, b3, b4⟩ => ⟨?_, b2, fun l i hl hi => ?_⟩
    · rw [b1, before_succ]; dsimp only at g1; omega
    · dsimp only at g1
      by_cases hlk : l = k
      · subst hlk; rw [← g1]; exact b3 i hi
      · have := before_mono q (show l + 1 ≤ k by omega)
        rw [before_succ] at this
        exact fun j hj1 hj2 => (g3 l i (by omega) hi j hj1 hj2).congr (b4 _ j (Or.inl (by omega)))
  · rw [if_neg (by rw [g1]; simp), Sat_ok]
    exact ⟨g2, fun k i hk hi => g3 k i (by omega) hi⟩

/-- pairs (block, row of the block) and row numbers -/
def rowE (q n : ℕ) : ((k : Fin (n + 1)) × Fin (q ^ (k : ℕ))) ≃ Fin (before q (n + 1)) :=
  (finSigmaFinEquiv (n := fun k : Fin (n + 1) => q ^ (k : ℕ))).trans (finCongr (Fin.sum_univ_eq_sum_range (fun t => q ^ t) (n + 1)))

theorem rowE_val (q n : ℕ) (x : (k : Fin (n + 1)) × Fin (q ^ (k : ℕ))) : (rowE q n x : ℕ) = before q x.1 + x.2 := by
  unfold rowE before
  simp only [Equiv.trans_apply, finCongr_apply, Fin.val_cast, finSigmaFinEquiv_apply, Fin.val_castLE]
  rw [Fin.sum_univ_eq_sum_range (fun t => q ^ t)]

/-- the listing of projective space as a matrix -/
def projM (E : ℕ → K) (q n : ℕ) : Matrix (Fin (before q (n + 1))) (Fin (n + 1)) K := fun r j =>
  proj E q ((rowE q n).symm r).1 ((rowE q n).symm r).2 j

theorem mrep_projM {A : TMat α} {E : ℕ → K} {q n : ℕ} (h : Shape A (before q (n + 1)) (n + 1) ∧
      ∀ k i, k ≤ n → i < q ^ k → RowIs rep A (before q k + i) 0 (n + 1) (proj E q k i)) : MRep rep A (projM E q n) := by
  refine ⟨h.1, fun r j => ?_⟩
  obtain ⟨x, rfl⟩ := (rowE q n).surjective r
  have := h.2 x.1 x.2 (by omega) x.2.2 j (Nat.zero_le _) j.2
  rw [← rowE_val] at this
  unfold projM
  rw [Equiv.symm_apply_apply]
  exact this

theorem proj_eq_zero {E : ℕ → K} {q k i j : ℕ} (h : k < j) : proj E q k i j = 0 := by
  unfold proj; rw [if_neg (by omega), if_neg (by omega)]

theorem proj_self {E : ℕ → K} {q k i : ℕ} : proj E q k i k = 1 := by
  unfold proj; rw [if_neg (by omega), if_pos rfl]

theorem projM_ne (E : ℕ → K) (q n : ℕ) (r) : projM E q n r ≠ 0 := by
  intro h
  have := congrFun h ((rowE q n).symm r).1
  unfold projM at this
  rw [proj_self] at this
  exact one_ne_zero this

/-- every non-zero vector is a multiple of exactly one row -/
theorem projM_unique {E : ℕ → K} {q n : ℕ} (hE : Function.Bijective (fun i : Fin q => E i)) (v : Fin (n + 1) → K) (hv : v ≠ 0) :
    ∃! r, ∃ c : Kˣ, v = c • projM E q n r := by
  classical
  obtain ⟨k, hk, hmax⟩ : ∃ k, v k ≠ 0 ∧ ∀ j, k < j → v j = 0 := by
    have hne : (Finset.univ.filter fun j => v j ≠ 0).Nonempty := by
      obtain ⟨j, hj⟩ := Function.ne_iff.mp hv
      exact ⟨j, by simpa using hj⟩
    refine ⟨(Finset.univ.filter fun j => v j ≠ 0).max' hne, ?_, fun j hj => ?_⟩
    · simpa using Finset.max'_mem _ hne
    · by_contra h0
      exact absurd (Finset.le_max' (Finset.univ.filter fun j => v j ≠ 0) j (by simpa using h0)) (not_le.mpr hj)
  obtain ⟨i, hi⟩ := (affine_bij (n := (k : ℕ)) hE).2 (fun j : Fin (k : ℕ) => (v k)⁻¹ * v ⟨j, by omega⟩)
  refine ⟨rowE q n ⟨k, i⟩, ⟨Units.mk0 (v k) hk, ?_⟩, ?_⟩
  · funext j
    rw [Pi.smul_apply, Units.smul_mk0, smul_eq_mul]
    unfold projM
    rw [Equiv.symm_apply_apply]
    dsimp only
    rcases lt_trichotomy (j : ℕ) (k : ℕ) with h | h | h
    · have h2 := congrFun hi ⟨j, h⟩
      dsimp only at h2
      unfold proj
      rw [if_pos h]
      unfold affine at h2
      rw [h2, mul_inv_cancel_left₀ hk]
    · obtain rfl : j = k := Fin.ext h
      rw [proj_self, mul_one]
    · rw [proj_eq_zero h, mul_zero, hmax j h]
  · rintro r ⟨c, hc⟩
    obtain ⟨⟨k', i'⟩, rfl⟩ := (rowE q n).surjective r
    unfold projM at hc
    rw [Equiv.symm_apply_apply] at hc
    dsimp only at hc
    have hcv : ∀ j, v j = c * proj E q k' i' j := fun j => by rw [hc]; rfl
    have hkk : k' = k := by
      rcases lt_trichotomy (k' : ℕ) (k : ℕ) with h | h | h
      · exact absurd (by rw [hcv, proj_eq_zero h, mul_zero]) hk
      · exact Fin.ext h
      · have := hmax k' h
        rw [hcv, proj_self, mul_one] at this
        exact absurd this c.ne_zero
    subst hkk
    have hck : (c : K) = v k' := by rw [hcv, proj_self, mul_one]
    congr 1
    refine Sigma.ext rfl (heq_of_eq ?_)
    refine (affine_bij (n := (k' : ℕ)) hE).1 ?_
    rw [hi]
    funext j
    dsimp only
    rw [← hck, hcv ⟨j, by omega⟩]
    unfold proj
    rw [if_pos (show (j : ℕ) < k' from j.2), inv_mul_cancel_left₀ c.ne_zero]
    rfl

end
end Lists
end Spffl
