/-
Characteristic polynomials and companion matrices.
-/
import Verif.Model.LinAlg
import Verif.Proof.EDetInst
import Verif.Base.Companion

namespace Spffl
open Res Polynomial

namespace BitT

/-- the bit `b` denotes `x` -/
def Rep (b : BitT) (x : ZMod 2) : Prop := b.residue = if x = 0 then 0#8 else 1#8

theorem exists_rep (x : ZMod 2) : ∃ b, Rep b x := ⟨⟨if x = 0 then 0#8 else 1#8⟩, rfl⟩

theorem rep_ofInt (v : Int) : Rep (ofInt v) (v : ZMod 2) := by
  unfold Rep ofInt
  have : ((v : ZMod 2) = 0) ↔ v % 2 = 0 := by rw [ZMod.intCast_zmod_eq_zero_iff_dvd]; omega
  simp only [this]

theorem rep_int {b : BitT} {x : ZMod 2} (h : Rep b x) : ((b.residue.toNat : Int) : ZMod 2) = x := by
  unfold Rep at h
  rw [h]
  clear h; revert x; decide

theorem eltRef : EltRef False tops Rep where
  add := by
    intro a b x y ha hb
    unfold Rep at *
    show Rep _ _
    unfold Rep
    rw [ha, hb]; clear ha hb; revert x y; decide
  sub := by
    intro a b x y ha hb
    unfold Rep at *
    show Rep _ _
    unfold Rep
    rw [ha, hb]; clear ha hb; revert x y; decide
  mul := by
    intro a b x y ha hb
    unfold Rep at *
    show Rep _ _
    unfold Rep
    rw [ha, hb]; clear ha hb; revert x y; decide
  div := by
    intro a b x y z ha hb hz
    have hy : y = 1 ∧ z = 1 := by clear hb; revert y z; decide
    obtain ⟨rfl, rfl⟩ := hy
    unfold Rep at hb
    show (if b.residue = 0 then Res.throw else ok a).Sat False _
    rw [hb, if_neg (by decide), Sat_ok, mul_one]
    exact ha
  eq := by
    intro a b x y ha hb
    unfold Rep at *
    show (ok (a.residue == b.residue)).Sat False _
    rw [Sat_ok, ha, hb]; clear ha hb; revert x y; decide

end BitT

section
variable {U : Prop} {α : Type} {m n : ℕ}

theorem cget_sat {A : TMat α} {i j : ℕ} {P : α → Prop} (hs : Shape A m n) (hi : i < m) (h : At2 A i j P) :
    (A.cget i j).Sat U P := by
  unfold TMat.cget TMat.row
  rw [if_pos (by rw [hs.nr]; exact hi)]
  exact get_sat h

theorem assignScalar_sat {A : TMat α} (hs : Shape A m n) (h0 : ∀ i j, i < m → j < n → At2 A i j fun _ => True) (e : α) :
    (A.assignScalar e).Sat U (fun B => Shape B m n ∧ ∀ i j, i < m → j < n → At2 B i j (· = e)) := by
  unfold TMat.assignScalar
  rw [hs.nr, hs.nc]
  refine (fill2_sat (body := fun i j s => TMat.put s i j (ok e)) (P0 := fun _ _ _ => True) (P := fun _ _ => (· = e))
    (Nat.zero_le _) (Nat.zero_le _) hs (fun i j _ hi _ hj => h0 i j hi hj) fun i j s _ hi _ hj hs _ => put_sat hs hi hj rfl).mono
    fun t ⟨h1, h2, _⟩ => ⟨h1, fun i j hi hj => h2 i j (by omega) hi (by omega) hj⟩

end

namespace LinAlg

section
variable {U : Prop} {α β : Type} {n : ℕ}

/-- set an entry, then change it when it is on the diagonal -/
theorem entry_sat {M : TMat β} {i j : ℕ} (hs : Shape M n n) (hi : i < n) (hj : j < n) {r : Res β} {f : β → Res β} {P Q : β → Prop}
    (hr : r.Sat U P) (h1 : i = j → ∀ e, P e → (f e).Sat U Q) (h2 : i ≠ j → ∀ e, P e → Q e) :
    (do let M ← M.cput i j r
        if i = j then M.cput i j (do let x ← M.cget i j; f x) else ok M : Res (TMat β)).Sat U
      (fun t => Shape t n n ∧ At2 t i j Q ∧ ∀ i' j', (i' ≠ i ∨ j' ≠ j) → ent t i' j' = ent M i' j') := by
  refine (cput_sat hs hi hj hr).bind fun M1 ⟨s1, e1, f1⟩ => ?_
  split
  · rename_i hij
    refine (cput_sat s1 hi hj ((cget_sat s1 hi e1).bind fun x hx => h1 hij x hx)).mono fun t ⟨s2, e2, f2⟩ => ⟨s2, e2, fun a b h => ?_⟩
    rw [f2 a b h, f1 a b h]
  · rename_i hij
    rw [Sat_ok]
    exact ⟨s1, e1.mono (h2 hij), f1⟩

end

/-! ### F2 -/

theorem f2_char_poly_sat {n : ℕ} (hn : 0 < n) {A : TMat BitT} {M : Matrix (Fin n) (Fin n) (ZMod 2)} (hA : MRep BitT.Rep A M) :
    (f2_char_poly A).Sat False (fun r => F2P.ERep r M.charpoly) := by
  unfold f2_char_poly TMat.is_square
  rw [hA.shape.nr, hA.shape.nc]
  simp only [beq_self_eq_true, Bool.not_true, Bool.false_eq_true, if_false]
  refine (alloc_sat hn hn).bind fun M0 ⟨s0, e0⟩ => ?_
  refine (fill2_sat (body := fun i j M => f2CharEntry A i j M) (P0 := fun _ _ _ => True)
    (P := fun i j e => ∀ (hi : i < n) (hj : j < n), F2P.ERep e (Matrix.charmatrix M ⟨i, hi⟩ ⟨j, hj⟩))
    (Nat.zero_le _) (Nat.zero_le _) s0 (fun i j _ hi _ hj => e0 i j hi hj) fun i j s _ hi _ hj hs _ => ?_).bind fun M1 ⟨s1, e1, _⟩ => ?_
  · refine entry_sat (P := fun e => F2P.ERep e (C (M ⟨i, hi⟩ ⟨j, hj⟩))) hs hi hj
      ((cget_sat hA.shape hi (hA.at hi hj)).bind fun a ha => ?_) (fun hij e he => ?_) (fun hij e he => ?_)
    · rw [Sat_ok]
      refine ⟨F2Mod.canon_ofInt _, ?_⟩
      rw [F2P.toPoly_ofInt, BitT.rep_int ha]
    · subst hij
      refine (F2P.edref.sub ⟨he.1.good, he.2⟩ ⟨F2P.canon_x.good, F2P.toPoly_x⟩).mono fun r hr _ _ => ?_
      rw [Matrix.charmatrix_apply_eq]
      have : (C (M ⟨i, hi⟩ ⟨i, hi⟩) - X : (ZMod 2)[X]) = X - C (M ⟨i, hi⟩ ⟨i, hi⟩) := by
        linear_combination (C (M ⟨i, hi⟩ ⟨i, hi⟩) - X) * F2P.two_eq_zero
      rw [← this]; exact hr
    · intro _ _
      rw [Matrix.charmatrix_apply_ne _ _ _ (by simpa using hij)]
      have : (-C (M ⟨i, hi⟩ ⟨j, hj⟩) : (ZMod 2)[X]) = C (M ⟨i, hi⟩ ⟨j, hj⟩) := by
        linear_combination -C (M ⟨i, hi⟩ ⟨j, hj⟩) * F2P.two_eq_zero
      rw [this]; exact he
  · refine (ed_det_sat F2P.edref hn (M := Matrix.charmatrix M)
      (MRep.of s1 fun i j hi hj => (e1 i j (by omega) hi (by omega) hj).mono fun e he => he hi hj) ?_)
    intro h0
    have := congrFun (congrFun h0 ⟨0, hn⟩) ⟨0, hn⟩
    rw [Matrix.charmatrix_apply_eq, Matrix.zero_apply] at this
    exact X_sub_C_ne_zero _ this

theorem f2_char_poly_nonsquare {A : TMat BitT} (h : A.num_rows ≠ A.num_cols) : f2_char_poly A = throw := by
  unfold f2_char_poly TMat.is_square
  rw [beq_eq_false_iff_ne.mpr h]; rfl

/-! ### coefficients in a field -/

section
variable {U : Prop} {α K : Type} [Field K] {O : CoefOps α} {rep : α → K → Prop} {ord : K → K → Prop}

theorem char_poly_sat (H : CoefRef U O rep ord) (d : α) {n : ℕ} (hn : 0 < n) {A : TMat α} {M : Matrix (Fin n) (Fin n) K}
    (hA : MRep rep A M) : (char_poly O d A).Sat U (fun r => CPoly.PRep rep r M.charpoly) := by
  unfold char_poly TMat.is_square
  rw [hA.shape.nr, hA.shape.nc]
  simp only [beq_self_eq_true, Bool.not_true, Bool.false_eq_true, if_false]
  refine (alloc_sat hn hn).bind fun M0 ⟨s0, e0⟩ => ?_
  refine (cget_sat hA.shape hn (hA.at hn hn)).bind fun a ha => ?_
  refine (H.psub 1 (by decide) ha).bind fun c1 h1 => (H.psub 0 (by decide) ha).bind fun c0 h0 => ?_
  refine (CPoly.linear_sat H h1 h0).bind fun t ht => ?_
  simp only [Int.cast_one, Int.cast_zero, C_1, C_0, one_mul, add_zero] at ht
  refine (fill2_sat (body := fun i j M => charEntry O t A i j M) (P0 := fun _ _ _ => True)
    (P := fun i j e => ∀ (hi : i < n) (hj : j < n), CPoly.PRep rep e (Matrix.charmatrix M ⟨i, hi⟩ ⟨j, hj⟩))
    (Nat.zero_le _) (Nat.zero_le _) s0 (fun i j _ hi _ hj => e0 i j hi hj) fun i j s _ hi _ hj hs _ => ?_).bind fun M1 ⟨s1, e1, _⟩ => ?_
  · refine entry_sat (P := fun e => CPoly.PRep rep e (-C (M ⟨i, hi⟩ ⟨j, hj⟩))) hs hi hj
      ((cget_sat hA.shape hi (hA.at hi hj)).bind fun a ha => (CPoly.const_sat H ha).bind fun c hc => ?_) (fun hij e he => ?_) (fun hij e he => ?_)
    · exact CPoly.neg_const_sat H hc (by rw [← hc.deg, natDegree_C])
    · subst hij
      refine (CPoly.add_sat H he ht).mono fun r hr _ _ => ?_
      rw [Matrix.charmatrix_apply_eq, sub_eq_neg_add]; exact hr
    · intro _ _
      rw [Matrix.charmatrix_apply_ne _ _ _ (by simpa using hij)]
      exact he
  · refine (ed_det_sat (CPoly.edref H d) hn (M := Matrix.charmatrix M)
      (MRep.of s1 fun i j hi hj => (e1 i j (by omega) hi (by omega) hj).mono fun e he => he hi hj) ?_)
    intro h0
    have := congrFun (congrFun h0 ⟨0, hn⟩) ⟨0, hn⟩
    rw [Matrix.charmatrix_apply_eq, Matrix.zero_apply] at this
    exact X_sub_C_ne_zero _ this

theorem char_poly_nonsquare (d : α) {A : TMat α} (h : A.num_rows ≠ A.num_cols) : char_poly O d A = throw := by
  unfold char_poly TMat.is_square
  rw [beq_eq_false_iff_ne.mpr h]; rfl

end

section
variable {U : Prop} {α R : Type} [CommRing R] {rep : α → R → Prop}

/-- the two filling loops of the companion matrix -/
theorem companion_fill {n : ℕ} (hn : 0 < n) {A : TMat α} (hs : Shape A n n) {zero : α} (hz : rep zero 0)
    (h0 : ∀ i j, i < n → j < n → At2 A i j (· = zero)) {g : R[X]} {one : Res α} {body : ℕ → TMat α → Res (TMat α)} (h1 : one.Sat U (fun e => rep e 1))
    (hb : ∀ i s, i < n → Shape s n n → At2 s 0 (n - 1 - i) (fun e => n - 1 - i < n → rep e 0) → (body i s).Sat U (fun t => Shape t n n ∧
      At2 t 0 (n - 1 - i) (fun e => rep e (-g.coeff i)) ∧ ∀ i' j', (i' ≠ 0 ∨ j' ≠ n - 1 - i) → ent t i' j' = ent s i' j')) :
    (do let rv ← forUp 1 n A fun i rv => rv.cput i (i - 1) one
        forUp 0 n rv body : Res (TMat α)).Sat U (fun t => MRep rep t (companion n g)) := by
  refine (forUp_sat (fun k s => Shape s n n ∧ ∀ i j, i < n → j < n → At2 s i j (fun e => rep e
      (if i ≠ 0 ∧ i < k ∧ i = j + 1 then 1 else 0))) (by omega) ⟨hs, fun i j hi hj => (h0 i j hi hj).mono fun e he => ?_⟩ ?_).bind
    fun B ⟨sB, eB⟩ => ?_
  · rw [if_neg (by omega), he]; exact hz
  · intro i s hi1 hi2 ⟨hs, he⟩
    refine (cput_sat hs (by omega) (by omega) h1).mono fun t ⟨st, et, ft⟩ => ⟨st, fun a b ha hb => ?_⟩
    by_cases hab : a = i ∧ b = i - 1
    · obtain ⟨rfl, rfl⟩ := hab
      rw [if_pos (by omega)]; exact et
    · refine ((he a b ha hb).congr (ft a b (by omega))).mono fun e h => ?_
      by_cases hc : a ≠ 0 ∧ a < i ∧ a = b + 1
      · rw [if_pos hc] at h; rw [if_pos (by omega)]; exact h
      · rw [if_neg hc] at h; rw [if_neg (by omega)]; exact h
  · refine (forUp_sat (fun k s => Shape s n n ∧ ∀ i j, i < n → j < n → At2 s i j (fun e => rep e
      (if i = 0 then (if n - 1 - j < k then -g.coeff (n - 1 - j) else 0) else if i = j + 1 then 1 else 0))) (by omega)
      ⟨sB, fun i j hi hj => (eB i j hi hj).mono fun e he => ?_⟩ ?_).mono fun t ⟨st, et⟩ => ?_
    · by_cases hi0 : i = 0
      · rw [if_neg (by omega)] at he; rw [if_pos hi0, if_neg (by omega)]; exact he
      · rw [if_neg hi0]
        by_cases hij : i = j + 1
        · rw [if_pos (by omega)] at he; rw [if_pos hij]; exact he
        · rw [if_neg (by omega)] at he; rw [if_neg hij]; exact he
    · intro i s hi1 hi2 ⟨hs, he⟩
      refine (hb i s hi2 hs ((he 0 (n - 1 - i) hn (by omega)).mono fun e h hlt => ?_)).mono fun t ⟨st, et, ft⟩ => ⟨st, fun a b ha hb => ?_⟩
      · rw [if_pos rfl, if_neg (by omega)] at h; exact h
      · by_cases hab : a = 0 ∧ b = n - 1 - i
        · obtain ⟨rfl, rfl⟩ := hab
          rw [if_pos rfl, if_pos (by omega), show n - 1 - (n - 1 - i) = i by omega]; exact et
        · refine ((he a b ha hb).congr (ft a b (by omega))).mono fun e h => ?_
          by_cases ha0 : a = 0
          · rw [if_pos ha0] at h ⊢
            by_cases hc : n - 1 - b < i
            · rw [if_pos hc] at h; rw [if_pos (by omega)]; exact h
            · rw [if_neg hc] at h; rw [if_neg (by omega)]; exact h
          · rw [if_neg ha0] at h ⊢; exact h
    · refine MRep.of st fun i j hi hj => (et i j hi hj).mono fun e he => ?_
      simp only [companion, Matrix.of_apply]
      by_cases h0 : i = 0
      · rw [if_pos h0, if_pos (by omega)] at he; rw [if_pos h0]; exact he
      · rw [if_neg h0] at he ⊢; exact he

end

theorem f2_companion_sat {f : F2P} {n : ℕ} (hn : 0 < n) (hd : (F2P.toPoly f).natDegree = n) :
    (f2_companion_matrix f).Sat False (fun r => MRep BitT.Rep r (companion n (F2P.toPoly f))) := by
  unfold f2_companion_matrix
  rw [F2P.find_degree_ok, ok_bind, hd]
  refine (alloc_sat hn hn).bind fun A ⟨s0, e0⟩ => ?_
  refine (assignScalar_sat s0 e0 _).bind fun A ⟨s1, e1⟩ => ?_
  refine companion_fill (g := F2P.toPoly f) hn s1 (by simpa using BitT.rep_ofInt 0) e1 (one := ok (BitT.ofInt 1)) (by simpa using BitT.rep_ofInt 1)
    fun i s hi hs he => ?_
  rw [F2P.bit_at_ok, ok_bind]
  have hc := F2P.coeff_toPoly f i
  cases hb : F2P.bitAt f i with
  | true =>
    rw [hb, if_pos rfl] at hc
    rw [if_pos rfl]
    refine (cput_sat hs hn (by omega) (r := ok (BitT.ofInt 1)) (P := fun e => BitT.Rep e (-(F2P.toPoly f).coeff i)) ?_)
    rw [Sat_ok, hc]
    have := BitT.rep_ofInt 1
    rwa [show ((1 : Int) : ZMod 2) = -1 by decide] at this
  | false =>
    rw [hb, if_neg (by simp)] at hc
    rw [if_neg (by simp), Sat_ok, hc, neg_zero]
    exact ⟨hs, he.mono fun e h => h (by omega), fun _ _ _ => rfl⟩

theorem companion_sat {U : Prop} {α R : Type} [CommRing R] {O : CoefOps α} {rep : α → R → Prop} {ord : R → R → Prop}
    (H : CoefRef U O rep ord) {f : CPoly α} {g : R[X]} (hf : CPoly.PRep rep f g) (hn : 0 < g.natDegree) :
    (companion_matrix O f).Sat U (fun r => MRep rep r (companion g.natDegree g)) := by
  unfold companion_matrix
  rw [← hf.deg]
  refine (alloc_sat hn hn).bind fun A ⟨s0, e0⟩ => ?_
  refine (rd_sat hf.c0).bind fun c hc => (H.psub 0 (by decide) hc).bind fun z hz => ?_
  refine (assignScalar_sat s0 e0 _).bind fun A ⟨s1, e1⟩ => ?_
  refine companion_fill (g := g) hn s1 (by simpa using hz) e1 ((H.psub 1 (by decide) hc).mono fun e he => by simpa using he)
    fun i s hi hs he => ?_
  exact cput_sat hs hn (by omega) ((CPoly.get_coeff_sat H hf i).bind fun x hx => H.neg hx)

theorem companion_throw {α : Type} {O : CoefOps α} {f : CPoly α} (hn : f.degree = 0) : companion_matrix O f = throw := by
  unfold companion_matrix TMat.alloc; simp [hn]

theorem f2_companion_throw {f : F2P} (hd : (F2P.toPoly f).natDegree = 0) : f2_companion_matrix f = throw := by
  unfold f2_companion_matrix TMat.alloc
  rw [F2P.find_degree_ok, hd]; simp

end LinAlg
end Spffl
