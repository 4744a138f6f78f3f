/-
Conversion between presentations of F_{2^n}.
-/
import Mathlib.RingTheory.Adjoin.Field
import Mathlib.FieldTheory.Separable
import Mathlib.FieldTheory.Perfect
import Mathlib.FieldTheory.Finite.GaloisField
import Verif.Model.Convert
import Verif.Proof.MinPoly
import Verif.Proof.UnitsF2
import Verif.Props.PolyFactor

namespace Spffl
open Res Polynomial CPoly F2P

/-- `vs` behaves as `tvector::sort` with the comparator made from `lt` (see `IsQsort`). -/
structure IsSort {α : Type} (lt : α → α → Res Bool) (vs : List α → List α) : Prop where
  perm : ∀ l, (vs l).Perm l
  sorted : ∀ l, (∃ key : α → ℕ, ∀ p ∈ l, ∀ q ∈ l, lt p q = ok (decide (key p < key q))) →
    (vs l).Pairwise fun p q => lt q p = ok false

theorem exists_sort {α : Type} (lt : α → α → Res Bool) : ∃ vs, IsSort lt vs := by
  classical
  refine ⟨fun l => if h : ∃ key : α → ℕ, ∀ p ∈ l, ∀ q ∈ l, lt p q = ok (decide (key p < key q)) then
    l.mergeSort (fun p q => decide (h.choose p ≤ h.choose q)) else l, fun l => ?_, fun l h => ?_⟩
  · split
    · exact List.mergeSort_perm _ _
    · exact List.Perm.refl _
  · rw [dif_pos h]
    have hc := h.choose_spec
    generalize h.choose = key at hc
    have hs := List.pairwise_mergeSort (le := fun p q : α => decide (key p ≤ key q))
      (fun a b c h1 h2 => by simp only [decide_eq_true_eq] at *; omega)
      (fun a b => by simp only [Bool.or_eq_true, decide_eq_true_eq]; omega) l
    have hm : ∀ p ∈ l.mergeSort (fun p q : α => decide (key p ≤ key q)), p ∈ l :=
      fun p hp => (List.mergeSort_perm _ _).mem_iff.mp hp
    refine hs.imp_of_mem fun {p q} hp hq hpq => ?_
    rw [hc q (hm q hq) p (hm p hp)]
    simp only [decide_eq_true_eq] at hpq
    simp [Nat.not_lt.mpr hpq]

namespace Convert

section algebra
variable {K L N : Type} [Field K] [Field L] [Field N] [Algebra K L] [Algebra K N]

/-- An element whose powers are all the units generates the field. -/
theorem adjoin_gen {w : L} (hg : IsGen w) : Algebra.adjoin K {w} = ⊤ := by
  refine Algebra.eq_top_iff.mpr fun y => ?_
  by_cases h : y = 0
  · rw [h]; exact zero_mem _
  · obtain ⟨k, hk⟩ := hg (Units.mk0 y h)
    rw [Units.val_mk0] at hk
    rw [← hk]
    exact pow_mem (Algebra.self_mem_adjoin_singleton K w) k

theorem hom_exists {w : L} (hg : IsGen w) {v : N} (hv : aeval v (minpoly K w) = 0) : ∃ φ : L →ₐ[K] N, φ w = v := by
  let e := AlgEquiv.adjoinSingletonEquivAdjoinRootMinpoly K w
  let t : L →ₐ[K] Algebra.adjoin K {w} := ((Subalgebra.equivOfEq _ _ (adjoin_gen (K := K) hg).symm).toAlgHom).comp (Subalgebra.topEquiv (R := K) (A := L)).symm.toAlgHom
  refine ⟨((AdjoinRoot.liftAlgHom (minpoly K w) (Algebra.ofId K N) v hv).comp e.toAlgHom).comp t, ?_⟩
  have h1 : t w = ⟨w, Algebra.self_mem_adjoin_singleton K w⟩ := rfl
  have h2 : e ⟨w, Algebra.self_mem_adjoin_singleton K w⟩ = AdjoinRoot.root (minpoly K w) := by
    refine e.symm.injective ?_
    rw [AlgEquiv.symm_apply_apply]
    exact Subtype.ext (AdjoinRoot.Minpoly.coe_toAdjoin_mk_X (R := K) (x := w)).symm
  show (AdjoinRoot.liftAlgHom (minpoly K w) (Algebra.ofId K N) v hv) (e (t w)) = v
  rw [h1, h2]
  exact AdjoinRoot.liftAlgHom_root (minpoly K w) (Algebra.ofId K N) v hv

theorem hom_unique {w : L} (hg : IsGen w) {φ ψ : L →+* N} (h : φ w = ψ w) : φ = ψ := by
  ext y
  by_cases hy : y = 0
  · rw [hy, map_zero, map_zero]
  · obtain ⟨k, hk⟩ := hg (Units.mk0 y hy)
    rw [Units.val_mk0] at hk
    rw [← hk, map_pow, map_pow, h]

end algebra

section
variable {K L : Type} [Field K] [Fintype K] [Field L] [Finite L] [Algebra K L]

/-- a polynomial irreducible over a finite field with one root in an extension has as many roots as its degree -/
theorem roots_count {f : K[X]} (hf : Irreducible f) (hmon : f.Monic) {y : L} (hy : aeval y f = 0) {ys : List L} (hnd : ys.Nodup)
    (hys : ∀ z, z ∈ ys ↔ aeval z f = 0) : ys.length = f.natDegree := by
  classical
  haveI : FiniteDimensional K L := Module.Finite.of_finite
  have hmin : f = minpoly K y := minpoly.eq_of_irreducible_of_monic hf hy hmon
  have hsep : f.Separable := hmin ▸ Algebra.IsSeparable.isSeparable K y
  have hspl : (f.map (algebraMap K L)).Splits := by
    rw [hmin, ← frob_prod_min]
    exact Polynomial.Splits.prod fun i _ => Polynomial.Splits.X_sub_C _
  have h1 := card_rootSet_eq_natDegree (K := L) hsep hspl
  rw [← h1, ← List.toFinset_card_of_nodup hnd, ← Set.toFinset_card]
  congr 1
  ext z
  rw [List.mem_toFinset, hys, Set.mem_toFinset, mem_rootSet]
  exact ⟨fun h => ⟨hf.ne_zero, h⟩, fun h => h.2⟩

end

theorem at_set_ne {α : Type} {cs : List α} {i j : ℕ} {e : α} {P : α → Prop} (hij : i ≠ j) (h : At cs j P) : At (cs.set i e) j P := by
  obtain ⟨x, h1, h2⟩ := h
  exact ⟨x, by rw [List.getElem?_set_ne hij]; exact h1, h2⟩

variable {m1 m2 : (ZMod 2)[X]} [hm1 : Fact (Irreducible m1)] [hm2 : Fact (Irreducible m2)]
  {qs : List (F2Mod × ℕ) → List (F2Mod × ℕ)} {g1 g2 : F2Mod} {w : AdjoinRoot m1} {v : AdjoinRoot m2}

theorem scalar_ok (hqs : IsQsort F2Mod.lt qs) (hd : m1.natDegree ≤ 30) (h1 : F2Mod.Rep m1 g1 w) (h2 : F2Mod.Rep m2 g2 v) (hw : w ≠ 0)
    (hg : IsGen w) {φ : AdjoinRoot m1 →+* AdjoinRoot m2} (hφ : φ w = v) {a : F2Mod} {x : AdjoinRoot m1} (ha : F2Mod.Rep m1 a x) :
    (scalar qs g1 g2 a).Ok (fun r => F2Mod.Rep m2 r (φ x)) := by
  classical
  unfold scalar
  refine (F2Mod.sub_ok h1 h1).bind fun z1 hz1 => ?_
  refine (F2Mod.sub_ok h2 h2).bind fun z2 hz2 => ?_
  rw [sub_self] at hz1 hz2
  rw [F2Mod.eq_ok ha hz1, ok_bind]
  by_cases hx : x = 0
  · rw [if_pos (by simpa using hx), Ok_ok, hx, map_zero]; exact hz2
  · rw [if_neg (by simpa using hx)]
    rcases (F2U.log_sat hqs h1 ha hd).1 (isUnit_iff_ne_zero.mpr hw) with ⟨-, h⟩ | ⟨r, e1, e2, e3⟩
    · exact absurd (hg (Units.mk0 x hx)) h
    · rw [e1, ok_bind, ← e3, map_pow, hφ]
      refine F2Mod.exp_ok h2 (by unfold INT_MAX; omega) (Or.inr ?_)
      rw [← hφ]
      exact (map_ne_zero φ).mpr hw

theorem scalar_throw (hqs : IsQsort F2Mod.lt qs) (hd : m1.natDegree ≤ 30) (h1 : F2Mod.Rep m1 g1 w) (h2 : F2Mod.Rep m2 g2 v)
    {a : F2Mod} {x : AdjoinRoot m1} (ha : F2Mod.Rep m1 a x) (hx : x ≠ 0) (hno : w = 0 ∨ ¬ ∃ k : ℕ, w ^ k = x) :
    scalar qs g1 g2 a = throw := by
  classical
  unfold scalar
  obtain ⟨z1, e1, hz1⟩ := F2Mod.sub_ok h1 h1
  obtain ⟨z2, e2, -⟩ := F2Mod.sub_ok h2 h2
  rw [sub_self] at hz1
  rw [e1, ok_bind, e2, ok_bind, F2Mod.eq_ok ha hz1, ok_bind, if_neg (by simpa using hx)]
  have hl := F2U.log_sat hqs h1 ha hd
  by_cases hw : w = 0
  · rw [hl.2 (by rw [isUnit_iff_ne_zero]; simpa using hw), throw_bind]
  · rcases hl.1 (isUnit_iff_ne_zero.mpr hw) with ⟨h, -⟩ | ⟨r, -, -, e3⟩
    · rw [h, throw_bind]
    · exact absurd ⟨r, e3⟩ (hno.resolve_left hw)

theorem poly_ok (hqs : IsQsort F2Mod.lt qs) (hd : m1.natDegree ≤ 30) (h1 : F2Mod.Rep m1 g1 w) (h2 : F2Mod.Rep m2 g2 v) (hw : w ≠ 0)
    (hg : IsGen w) {φ : AdjoinRoot m1 →+* AdjoinRoot m2} (hφ : φ w = v) {a : CPoly F2Mod} {f : (AdjoinRoot m1)[X]} (ha : PRep (F2Mod.Rep m1) a f) :
    (poly qs g1 g2 a).Ok (fun r => PRep (F2Mod.Rep m2) r (f.map φ)) := by
  rw [← sat_false]
  have H1 := F2Mod.cops_ref (m := m1) hm1.out.ne_zero
  have H2 := F2Mod.cops_ref (m := m2) hm2.out.ne_zero
  have hdeg : (f.map φ).natDegree = a.degree := by rw [natDegree_map, ha.deg]
  unfold poly
  refine (copy_sat (O := F2Mod.cops) ha).bind fun b ⟨_, hb2, hb3⟩ => ?_
  have hbc : ∀ j, j < a.degree + 1 → At b.coeffs j (fun e => F2Mod.Rep m1 e (f.coeff j)) := by
    intro j hj
    rename_i hb
    exact hb.co j (by omega)
  refine (forUp_sat (fun (k : ℕ) (s : CPoly F2Mod) => s.degree = a.degree ∧ a.degree < s.coeffs.length ∧
    (∀ j, j < k → At s.coeffs j (fun e => F2Mod.Rep m2 e ((f.map φ).coeff j))) ∧
    ∀ j, k ≤ j → j < a.degree + 1 → At s.coeffs j (fun e => F2Mod.Rep m1 e (f.coeff j))) (Nat.zero_le _)
    ⟨hb2, by omega, fun j hj => by omega, fun j _ hj => hbc j hj⟩ ?_).mono ?_
  · rintro i s - hi ⟨s1, s2, s3, s4⟩
    refine (get_coeff_sat H1 ha i).bind fun c hc => ?_
    refine (sat_false.mpr (scalar_ok hqs hd h1 h2 hw hg hφ hc)).bind fun c hc => ?_
    rw [← coeff_map] at hc
    unfold CPoly.set_coeff
    rw [if_neg (by omega)]
    have hz : ∀ {m : (ZMod 2)[X]} {e : F2Mod} {y : AdjoinRoot m}, F2Mod.Rep m e y →
        ∃ z, F2Mod.cops.psub e 0 = ok z ∧ Canon z.residue ∧ Canon z.modulus := by
      intro m e y he
      obtain ⟨z, e1, e2⟩ := (F2Mod.zero_one he).1
      exact ⟨z, e1, e2.cr, e2.cm⟩
    have h0 : At s.coeffs 0 (fun e => ∃ z, F2Mod.cops.psub e 0 = ok z ∧ Canon z.residue ∧ Canon z.modulus) := by
      rcases Nat.eq_zero_or_pos i with h | h
      · obtain ⟨e, e1, e2⟩ := s4 0 (by omega) (by omega)
        exact ⟨e, e1, hz e2⟩
      · obtain ⟨e, e1, e2⟩ := s3 0 h
        exact ⟨e, e1, hz e2⟩
    refine (rd_sat h0).bind fun c0 ⟨z, hz, z1, z2⟩ => ?_
    rw [hz, ok_bind, if_neg (by omega), Int.toNat_natCast]
    unfold set_coeff_in
    refine (wr_sat (by omega)).bind fun cs hcs => ?_
    subst hcs
    have t3 : ∀ j, j < i + 1 → At (s.coeffs.set i c) j (fun e => F2Mod.Rep m2 e ((f.map φ).coeff j)) := by
      intro j hj
      by_cases hji : j = i
      · subst hji; exact at_set_self (by omega) hc
      · exact at_set_ne (Ne.symm hji) (s3 j (by omega))
    have t4 : ∀ j, i + 1 ≤ j → j < a.degree + 1 → At (s.coeffs.set i c) j (fun e => F2Mod.Rep m1 e (f.coeff j)) :=
      fun j h h' => at_set_ne (by omega) (s4 j (by omega) h')
    have hlen : a.degree < (s.coeffs.set i c).length := by rw [List.length_set]; exact s2
    by_cases hid : i = s.degree
    · rw [if_pos hid]
      obtain ⟨e, he⟩ : ∃ e, F2Mod.eq c z = ok e := by
        unfold F2Mod.eq
        rw [F2Mod.ne_ok hc.cr.ne_nil z1.ne_nil, ok_bind]
        split
        · exact ⟨_, rfl⟩
        · rw [F2Mod.ne_ok hc.cm.ne_nil z2.ne_nil, ok_bind]
          split <;> exact ⟨_, rfl⟩
      show ((F2Mod.eq c z).bind _).Sat _ _
      rw [he]
      show (if e = true then _ else _ : Res _).Sat _ _
      split
      · refine (recompute_sat H2 (d := s.degree) (f := f.map φ) (fun j hj => t3 j (by omega)) (by omega)).mono fun r hr => ?_
        have hrd : r.degree = a.degree := by rw [← hr.deg, hdeg]
        exact ⟨hrd, by have := hr.len; omega, fun j hj => hr.co j (by omega), fun j hj hj' => by omega⟩
      · rw [Sat_ok]
        exact ⟨s1, hlen, t3, t4⟩
    · rw [if_neg hid, Sat_ok]
      exact ⟨s1, hlen, t3, t4⟩
  · rintro s ⟨s1, s2, s3, s4⟩
    exact ⟨by rw [hdeg, s1], by rw [s1]; exact s3⟩

theorem matrix_ok (hqs : IsQsort F2Mod.lt qs) (hd : m1.natDegree ≤ 30) (h1 : F2Mod.Rep m1 g1 w) (h2 : F2Mod.Rep m2 g2 v) (hw : w ≠ 0)
    (hg : IsGen w) {φ : AdjoinRoot m1 →+* AdjoinRoot m2} (hφ : φ w = v) {r c : ℕ} (hr : 0 < r) (hc : 0 < c) {A : TMat F2Mod}
    {M : Matrix (Fin r) (Fin c) (AdjoinRoot m1)} (hA : MRep (F2Mod.Rep m1) A M) :
    (matrix qs g1 g2 A).Ok (fun B => MRep (F2Mod.Rep m2) B (M.map φ)) := by
  rw [← sat_false]
  unfold matrix
  rw [hA.shape.nr, hA.shape.nc]
  refine (alloc_sat hr hc).bind fun s hh => ?_
  obtain ⟨hs, h0⟩ := hh
  refine (fill2_sat (P0 := fun _ _ _ => True) (P := fun i j e => ∃ (hi : i < r) (hj : j < c), F2Mod.Rep m2 e (φ (M ⟨i, hi⟩ ⟨j, hj⟩))) (Nat.zero_le _)
    (Nat.zero_le _) hs (fun i j _ hi _ hj => h0 i j hi hj) fun i j s _ hi _ hj hs _ => ?_).mono ?_
  · refine cput_sat hs hi hj ?_
    refine (cget_sat hA.shape hi (hA.at hi hj)).bind fun e he => ?_
    exact (sat_false.mpr (scalar_ok hqs hd h1 h2 hw hg hφ he)).mono fun q hq => ⟨hi, hj, hq⟩
  · rintro t ⟨t1, t2, -⟩
    refine MRep.of t1 fun i j hi hj => ?_
    obtain ⟨e, e1, _, _, e2⟩ := t2 i j (Nat.zero_le _) hi (Nat.zero_le _) hj
    exact ⟨e, e1, e2⟩

/-- An element of the prime field has the same residue in every presentation. -/
theorem change_const {c : F2Mod} {b : ZMod 2} (hc : F2Mod.Rep m1 c (algebraMap (ZMod 2) (AdjoinRoot m1) b)) {mm : F2P} (hmc : Canon mm)
    (hm : toPoly mm = m2) : (F2Mod.change_modulus c mm).Ok (fun r => F2Mod.Rep m2 r (algebraMap (ZMod 2) (AdjoinRoot m2) b)) := by
  refine (F2Mod.mk'_ok hc.cr.good hmc hm hm2.out.ne_zero).mono fun r hr => ?_
  have h : toPoly c.residue = C b := by
    have h3 : (C b : (ZMod 2)[X]).degree < m1.degree := lt_of_le_of_lt degree_C_le (degree_pos_of_irreducible hm1.out)
    have h4 := hc.val
    rw [AdjoinRoot.algebraMap_eq, ← AdjoinRoot.mk_C, AdjoinRoot.mk_eq_mk] at h4
    exact sub_eq_zero.mp (eq_zero_of_dvd_of_degree_lt h4 (lt_of_le_of_lt (degree_sub_le _ _) (max_lt hc.deg h3)))
  rw [h, AdjoinRoot.mk_C] at hr
  exact hr.1

theorem change_modulus_sat {p : CPoly F2Mod} {f : (ZMod 2)[X]} (hp : PRep (F2Mod.Rep m1) p (f.map (algebraMap (ZMod 2) (AdjoinRoot m1))))
    {mm : F2P} (hmc : Canon mm) (hm : toPoly mm = m2) :
    (change_modulus p mm).Sat False (fun r => PRep (F2Mod.Rep m2) r (f.map (algebraMap (ZMod 2) (AdjoinRoot m2)))) := by
  unfold change_modulus
  refine (fillUp_sat (f := fun i cs => do let c ← rd cs i; F2Mod.change_modulus c mm)
    (P := fun i e => F2Mod.Rep m2 e (algebraMap (ZMod 2) (AdjoinRoot m2) (f.coeff i))) (by omega) (by have := hp.len; omega)
    fun i s _ hi _ hs _ => ?_).bind fun cs hh => ?_
  · obtain ⟨e, e1, e2⟩ := hp.co i hi
    rw [coeff_map] at e2
    refine (rd_sat (P := fun c => c = e) ⟨e, (hs i (Or.inr le_rfl)).trans e1, rfl⟩).bind fun c hc => ?_
    subst hc
    exact sat_false.mpr (change_const e2 hmc hm)
  · rw [Sat_ok]
    refine ⟨?_, fun i hi => ?_⟩
    · have := hp.deg
      rwa [natDegree_map] at this ⊢
    · rw [coeff_map]
      exact hh.2.1 i (Nat.zero_le _) hi

/-- head of the sorted list -/
theorem sort_head {vs : List F2Mod → List F2Mod} (hvs : IsSort F2Mod.lt vs) {rs : List F2Mod} {ys : List (AdjoinRoot m2)}
    (h : List.Forall₂ (F2Mod.Rep m2) rs ys) (hne : ys ≠ []) :
    ∃ r y, rd (vs rs) 0 = ok r ∧ y ∈ ys ∧ F2Mod.Rep m2 r y ∧ ∀ z ∈ ys, F2nP.kv m2 y ≤ F2nP.kv m2 z := by
  have hm0 := hm2.out.ne_zero
  have hmem : ∀ r ∈ rs, ∃ y ∈ ys, F2Mod.Rep m2 r y := fun r hr => by
    obtain ⟨i, hi, rfl⟩ := List.getElem_of_mem hr
    have hl := h.length_eq
    exact ⟨ys[i], List.getElem_mem _, List.Forall₂.get h hi (by omega)⟩
  have hmem2 : ∀ y ∈ ys, ∃ r ∈ rs, F2Mod.Rep m2 r y := fun y hy => by
    obtain ⟨i, hi, rfl⟩ := List.getElem_of_mem hy
    have hl := h.length_eq
    exact ⟨rs[i], List.getElem_mem _, List.Forall₂.get h (by omega) hi⟩
  have hlt : ∀ {a b : F2Mod} {x y : AdjoinRoot m2}, F2Mod.Rep m2 a x → F2Mod.Rep m2 b y →
      F2Mod.lt a b = ok (decide (F2nP.kv m2 x < F2nP.kv m2 y)) := by
    intro a b x y ha hb
    obtain ⟨c, h1, h2⟩ := (F2U.uref hm0).lt ha hb
    rw [show F2Mod.lt a b = ok c from h1]
    congr 1
    rw [Bool.eq_iff_iff, h2, decide_eq_true_iff]
  have hs := hvs.sorted rs ⟨fun a => nval (toPoly a.residue), fun p hp q hq => by
    obtain ⟨x, -, hx⟩ := hmem p hp
    obtain ⟨y, -, hy⟩ := hmem q hq
    rw [hlt hx hy, F2nP.kv_rep hx, F2nP.kv_rep hy]⟩
  have hperm := hvs.perm rs
  cases hv : vs rs with
  | nil =>
    rw [hv] at hperm
    have := hperm.length_eq
    have hl := h.length_eq
    exact absurd (List.length_eq_zero_iff.mp (by simpa using (this.trans hl).symm)) hne
  | cons r l =>
    rw [hv] at hperm hs
    obtain ⟨y, hy, hr⟩ := hmem r (hperm.mem_iff.mp (by simp))
    refine ⟨r, y, rfl, hy, hr, fun z hz => ?_⟩
    obtain ⟨q, hq, hqz⟩ := hmem2 z hz
    rcases List.mem_cons.mp (hperm.mem_iff.mpr hq) with rfl | hql
    · exact le_of_eq (by rw [F2nP.kv_rep hr, F2nP.kv_rep hqz])
    · have := List.rel_of_pairwise_cons hs hql
      rw [hlt hqz hr] at this
      have h2 : decide (F2nP.kv m2 z < F2nP.kv m2 y) = false := by injection this
      simpa using h2

theorem prep_ok {vs : List F2Mod → List F2Mod} (hvs : IsSort F2Mod.lt vs) (hd1 : (m1.natDegree : Int) ≤ INT_MAX) (hd2 : m2.natDegree ≤ 30) (h1 : F2Mod.Rep m1 g1 w)
    {mm : F2P} (hmc : Canon mm) (hm : toPoly mm = m2) :
    (prep vs g1 mm).Ok (fun r => match r with
      | none => ∀ y : AdjoinRoot m2, aeval y (minpoly (ZMod 2) w) ≠ 0
      | some g => ∃ v, F2Mod.Rep m2 g v ∧ aeval v (minpoly (ZMod 2) w) = 0 ∧
          ∀ y, aeval y (minpoly (ZMod 2) w) = 0 → F2nP.kv m2 v ≤ F2nP.kv m2 y) := by
  rw [← sat_false]
  haveI : Finite (AdjoinRoot m1) := Module.finite_of_finite (ZMod 2)
  haveI : Finite (AdjoinRoot m2) := Module.finite_of_finite (ZMod 2)
  have hint : IsIntegral (ZMod 2) w := Algebra.IsIntegral.isIntegral w
  have hfr : Module.finrank (ZMod 2) (AdjoinRoot m1) = m1.natDegree := by
    rw [(AdjoinRoot.powerBasis hm1.out.ne_zero).finrank, AdjoinRoot.powerBasis_dim]
  have hle : (minpoly (ZMod 2) w).natDegree ≤ m1.natDegree := hfr ▸ Nat.le_of_dvd Module.finrank_pos (minpoly_natDegree_dvd (K := ZMod 2) w)
  unfold prep
  refine (sat_false.mpr (LinAlg.f2_polymod_min_poly_ok h1)).bind fun p1 hp1 => ?_
  refine (copy_sat (O := F2Mod.cops) hp1).bind fun p2 ⟨hp2, _, _⟩ => ?_
  refine (change_modulus_sat hp2 hmc hm).bind fun p3 hp3 => ?_
  have hne : (minpoly (ZMod 2) w).map (algebraMap (ZMod 2) (AdjoinRoot m2)) ≠ 0 := (Polynomial.map_ne_zero (minpoly.ne_zero hint))
  have hdeg : ((minpoly (ZMod 2) w).map (algebraMap (ZMod 2) (AdjoinRoot m2))).natDegree = (minpoly (ZMod 2) w).natDegree := natDegree_map _
  refine (sat_false.mpr (Props.C77_roots hd2 hp3 hne (by rw [hdeg]; omega))).bind fun r hr => ?_
  obtain ⟨ys, y1, y2, y3⟩ := hr
  have hys : ∀ y, y ∈ ys ↔ aeval y (minpoly (ZMod 2) w) = 0 := fun y => by rw [y2, aeval_def, eval₂_eq_eval_map]
  cases r with
  | none =>
    simp only at y3
    subst y3
    rw [Sat_ok]
    exact fun y hy => by simpa using (hys y).mpr hy
  | some rs =>
    obtain ⟨hne, hall⟩ := y3
    obtain ⟨r, y, e1, e2, e3, e4⟩ := sort_head hvs hall hne
    have hc := roots_count (minpoly.irreducible hint) (minpoly.monic hint) ((hys y).mp e2) y1 hys
    simp only
    rw [if_neg (by rw [hall.length_eq, hc, ← hp3.deg, hdeg]; simp), e1, ok_bind, Sat_ok]
    exact ⟨y, e3, (hys y).mp e2, fun z hz => e4 z ((hys z).mpr hz)⟩

theorem root_iff_dvd {w : AdjoinRoot m1} (hg : IsGen w) :
    (∃ y : AdjoinRoot m2, aeval y (minpoly (ZMod 2) w) = 0) ↔ m1.natDegree ∣ m2.natDegree := by
  haveI : Finite (AdjoinRoot m1) := Module.finite_of_finite (ZMod 2)
  haveI : Finite (AdjoinRoot m2) := Module.finite_of_finite (ZMod 2)
  have hfr : ∀ (m : (ZMod 2)[X]) [hm : Fact (Irreducible m)], Module.finrank (ZMod 2) (AdjoinRoot m) = m.natDegree := fun m hm => by
    rw [(AdjoinRoot.powerBasis hm.out.ne_zero).finrank, AdjoinRoot.powerBasis_dim]
  rw [← hfr m1, ← hfr m2, ← FiniteField.nonempty_algHom_iff_finrank_dvd]
  constructor
  · rintro ⟨y, hy⟩
    obtain ⟨φ, -⟩ := hom_exists hg hy
    exact ⟨φ⟩
  · rintro ⟨φ⟩
    exact ⟨φ w, by rw [aeval_algHom_apply, minpoly.aeval, map_zero]⟩

end Convert
end Spffl
