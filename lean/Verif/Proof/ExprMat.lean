import Verif.Model.ExprInst3
import Verif.Proof.ExprInst2
import Verif.Props.Expr
import Verif.Proof.Kernel
import Verif.Proof.MatInverse
import Verif.Proof.VecText

/-!
# The calculators for matrices and vectors: proofs
-/

namespace Spffl
open Res

/-! ### More about matrices -/

section mats
variable {U : Prop} {α F : Type} [Field F] {O : TOps α} {rep : α → F → Prop} {m n : ℕ}

theorem flip_horiz_sat {A : TMat α} {M : Matrix (Fin m) (Fin n) F} (hm : 0 < m) (hn : 0 < n) (hA : MRep rep A M) :
    (TMat.flip_horiz O A).Sat U (fun r => MRep rep r (M.submatrix id Fin.rev)) := by
  unfold TMat.flip_horiz
  rw [hA.shape.nr, hA.shape.nc]
  refine (index_sat (e := id) (e' := fun j => n - j - 1) hm hn hA (fun i hi => hi) (fun j hj => by omega)).mono fun r hr => ?_
  convert hr using 1
  ext i j
  simp only [Matrix.submatrix_apply, Matrix.of_apply, id]
  congr 1

theorem flip_horiz_vert_sat {A : TMat α} {M : Matrix (Fin m) (Fin n) F} (hm : 0 < m) (hn : 0 < n) (hA : MRep rep A M) :
    (TMat.flip_horiz_vert O A).Sat U (fun r => MRep rep r (M.submatrix Fin.rev Fin.rev)) := by
  unfold TMat.flip_horiz_vert
  rw [hA.shape.nr, hA.shape.nc]
  refine (index_sat (e := fun i => m - i - 1) (e' := fun j => n - j - 1) hm hn hA (fun i hi => by omega) (fun j hj => by omega)).mono fun r hr => ?_
  convert hr using 1
  ext i j
  simp only [Matrix.submatrix_apply, Matrix.of_apply]
  congr 1

/-- The reduced row echelon form from the right and from below. -/
theorem rechr_sat (H : EltRef U O rep) {A : TMat α} {M : Matrix (Fin m) (Fin n) F} (hm : 0 < m) (hn : 0 < n) (hA : MRep rep A M) :
    (do let c ← TMat.flip_horiz O A; let c ← TMat.row_echelon_form O c; TMat.flip_horiz_vert O c).Sat U (fun r => ∃ R, MRep rep r R ∧
      (∃ rk p, IsReduced (R.submatrix Fin.rev Fin.rev) rk p) ∧ RowEquiv M R) := by
  refine (flip_horiz_sat hm hn hA).bind fun B hB => ?_
  refine (ref_sat H hm hn hB).bind fun C hC => ?_
  obtain ⟨N, hN, hr, P, hP, he⟩ := hC
  refine (flip_horiz_vert_sat hm hn hN).mono fun D hD => ⟨_, hD, ?_, ?_⟩
  · rw [Matrix.submatrix_submatrix, show (Fin.rev ∘ Fin.rev : Fin m → Fin m) = id from funext Fin.rev_rev,
      show (Fin.rev ∘ Fin.rev : Fin n → Fin n) = id from funext Fin.rev_rev, Matrix.submatrix_id_id]
    exact hr
  · refine ⟨P.submatrix Fin.rev id, ?_, ?_⟩
    · have : P.submatrix Fin.rev id = P.submatrix Fin.revPerm (Equiv.refl _) := rfl
      rw [Matrix.isUnit_iff_isUnit_det] at hP ⊢
      rw [show P.submatrix Fin.rev id = P.submatrix Fin.revPerm id from rfl, Matrix.det_permute]
      exact (Units.isUnit _).map (Int.castRingHom F) |>.mul hP
    · rw [he]
      ext i j
      simp [Matrix.mul_apply]

/-- The first rows of an echelon form. -/
theorem echelon_top {R : Matrix (Fin m) (Fin n) F} {r : ℕ} {p : Fin r → Fin n} (h : IsEchelon R r p) :
    IsEchelon (R.submatrix (Fin.castLE h.le) id) r p ∧
    Submodule.span F (Set.range (R.submatrix (Fin.castLE h.le) id).row) = Submodule.span F (Set.range R.row) := by
  refine ⟨⟨le_refl _, h.mono, fun i hi => absurd i.2 (by omega), fun i => h.one i, fun i j hj => h.left i j hj⟩, ?_⟩
  apply le_antisymm
  · rw [Submodule.span_le]
    rintro _ ⟨i, rfl⟩
    exact Submodule.subset_span ⟨Fin.castLE h.le i, rfl⟩
  · rw [Submodule.span_le]
    rintro _ ⟨i, rfl⟩
    by_cases hi : (i : ℕ) < r
    · exact Submodule.subset_span ⟨⟨i, hi⟩, rfl⟩
    · have : R.row i = 0 := h.zero i (by omega)
      rw [this]; exact Submodule.zero_mem _

theorem reduced_top {R : Matrix (Fin m) (Fin n) F} {r : ℕ} {p : Fin r → Fin n} (h : IsReduced R r p) :
    IsReduced (R.submatrix (Fin.castLE h.le) id) r p :=
  ⟨(echelon_top h.toIsEchelon).1, fun i k hik => h.clear (Fin.castLE h.le i) k hik⟩

theorem top_rep {A : TMat α} {R : Matrix (Fin m) (Fin n) F} (hA : MRep rep A R) {r : ℕ} (hr : r ≤ m) :
    MRep rep { A with num_rows := r } (R.submatrix (Fin.castLE hr) id) :=
  ⟨⟨rfl, hA.shape.nc, fun i hi => hA.shape.row i (by omega)⟩, fun i j => hA.ent (Fin.castLE hr i) j⟩

theorem echelon_zero {M R : Matrix (Fin m) (Fin n) F} {r : ℕ} {p : Fin r → Fin n} (h : IsEchelon R r p) (he : RowEquiv M R) :
    r = 0 ↔ M = 0 := by
  obtain ⟨P, hP, hR⟩ := he
  constructor
  · intro h0
    have : R = 0 := by ext i j; rw [h.zero i (by omega)]; rfl
    rw [this] at hR
    have hd := (Matrix.isUnit_iff_isUnit_det P).mp hP
    have := congrArg (P⁻¹ * ·) hR
    simpa [← Matrix.mul_assoc, Matrix.nonsing_inv_mul _ hd] using this.symm
  · rintro rfl
    rw [Matrix.mul_zero] at hR
    by_contra h0
    exact h.row_ne_zero (i := ⟨0, by have := h.le; omega⟩) (by show 0 < r; omega) (congrFun hR _)

/-- The non-zero rows of the echelon forms. -/
theorem rrnz_sat (H : EltRef U O rep) {A : TMat α} {M : Matrix (Fin m) (Fin n) F} (hm : 0 < m) (hn : 0 < n) (hA : MRep rep A M) :
    (TMat.get_rr_non_zero_rows O A).Sat U (fun o => (M = 0 ∧ o = none) ∨ ∃ B, o = some B ∧ ∃ r, 0 < r ∧ ∃ R : Matrix (Fin r) (Fin n) F,
      MRep rep B R ∧ (∃ p, IsEchelon R r p) ∧ Submodule.span F (Set.range R.row) = Submodule.span F (Set.range M.row)) := by
  unfold TMat.get_rr_non_zero_rows
  refine (rr_sat H hm hn hA).bind fun B hB => ?_
  obtain ⟨R, hR, ⟨r, p, he⟩, hq⟩ := hB
  refine (rank_rr_sat H hm hn hR he).bind fun k hk => ?_
  subst hk
  by_cases h0 : k = 0
  · rw [if_pos h0]; exact .inl ⟨(echelon_zero he hq).1 h0, rfl⟩
  · rw [if_neg h0]
    exact .inr ⟨_, rfl, k, by omega, _, top_rep hR he.le, ⟨p, (echelon_top he).1⟩, (echelon_top he).2.trans hq.rowSpace⟩

theorem rechnz_sat (H : EltRef U O rep) {A : TMat α} {M : Matrix (Fin m) (Fin n) F} (hm : 0 < m) (hn : 0 < n) (hA : MRep rep A M) :
    (TMat.get_rech_non_zero_rows O A).Sat U (fun o => (M = 0 ∧ o = none) ∨ ∃ B, o = some B ∧ ∃ r, 0 < r ∧ ∃ R : Matrix (Fin r) (Fin n) F,
      MRep rep B R ∧ (∃ p, IsReduced R r p) ∧ Submodule.span F (Set.range R.row) = Submodule.span F (Set.range M.row)) := by
  unfold TMat.get_rech_non_zero_rows
  refine (ref_sat H hm hn hA).bind fun B hB => ?_
  obtain ⟨R, hR, ⟨r, p, he⟩, hq⟩ := hB
  refine (rank_rr_sat H hm hn hR he.toIsEchelon).bind fun k hk => ?_
  subst hk
  by_cases h0 : k = 0
  · rw [if_pos h0]; exact .inl ⟨(echelon_zero he.toIsEchelon hq).1 h0, rfl⟩
  · rw [if_neg h0]
    exact .inr ⟨_, rfl, k, by omega, _, top_rep hR he.le, ⟨p, reduced_top he⟩, (echelon_top he.toIsEchelon).2.trans hq.rowSpace⟩

theorem check_inverse_sat (H : EltRef U O rep) {A B : TMat α} {M N : Matrix (Fin n) (Fin n) F} (hn : 0 < n) (hA : MRep rep A M) (hB : MRep rep B N)
    (h1 : M * N = 1) (h2 : N * M = 1) : (TMat.check_inverse O A B).Sat U (fun _ => True) := by
  unfold TMat.check_inverse
  refine (mul_sat' H hn hn hn hA hB).bind fun P hP => ?_
  refine (mul_sat' H hn hn hn hB hA).bind fun Q hQ => ?_
  refine (is_I_sat H hn hP).bind fun b hb => ?_
  rw [hb.2 h1]
  refine (is_I_sat H hn hQ).bind fun c hc => ?_
  rw [hc.2 h2]
  trivial

theorem eqScalarLoop_sat (H : EltRef U O rep) {v : TVec α} {x : Fin n → F} (hv : VRep rep v x) {zero : α} (hz : rep zero 0) :
    ∀ k i, k + i = n → (TVec.eqScalarLoop O v zero k i).Sat U (fun r => r = true ↔ ∀ j : Fin n, i ≤ j → x j = 0)
  | 0, i, hki => by
    show true = true ↔ _
    exact ⟨fun _ j hj => absurd j.2 (by omega), fun _ => rfl⟩
  | k + 1, i, hki => by
    unfold TVec.eqScalarLoop
    obtain ⟨e, he, hr⟩ := hv.at (j := i) (by omega)
    rw [show rd v i = ok e by simp [rd, he]]
    simp only [ok_bind]
    refine (ne_sat H hr hz).bind fun d hd => ?_
    by_cases h : x ⟨i, by omega⟩ = 0
    · have : d = false := by cases d <;> simp_all
      rw [this]
      simp only [Bool.false_eq_true, if_false]
      refine (eqScalarLoop_sat H hv hz k (i + 1) (by omega)).mono fun r hr => hr.trans ⟨fun hh j hj => ?_, fun hh j hj => hh j (by omega)⟩
      rcases Nat.eq_or_lt_of_le hj with e | e
      · rw [show j = ⟨i, by omega⟩ from Fin.ext e.symm]; exact h
      · exact hh j e
    · have : d = true := by cases d <;> simp_all
      rw [this]
      simp only [if_true]
      show false = true ↔ _
      simp only [Bool.false_eq_true, false_iff]
      exact fun hh => h (hh ⟨i, by omega⟩ (le_refl _))

theorem check_kernel_basis_sat (H : EltRef U O rep) {A B : TMat α} {M : Matrix (Fin m) (Fin n) F} {d : ℕ} {K : Matrix (Fin d) (Fin n) F} (hm : 0 < m)
    (hn : 0 < n) (hA : MRep rep A M) (hB : MRep rep B K) (hk : ∀ i, M.mulVec (K i) = 0) :
    (TMat.check_kernel_basis O A B).Sat U (fun _ => True) := by
  unfold TMat.check_kernel_basis
  refine (get_sat (hA.at hm hn)).bind fun a ha => ?_
  refine (get_sat (hA.at hm hn)).bind fun a' ha' => ?_
  refine (H.sub ha ha').bind fun z hz => ?_
  rw [sub_self] at hz
  rw [hB.shape.nr]
  refine forUp_sat (fun _ _ => True) (Nat.zero_le _) trivial fun i _ _ hi _ => ?_
  obtain ⟨r, hr, hv⟩ := hB.rowRep hi
  rw [show rd B.rows i = ok r by simp [rd, hr]]
  simp only [ok_bind]
  refine (mulVec_sat H hm hn hA hv).bind fun w hw => ?_
  unfold TVec.eqScalar
  rw [hw.1]
  refine (eqScalarLoop_sat H hw hz m 0 rfl).bind fun e he => ?_
  rw [he.2 fun j _ => by have := congrFun (hk ⟨i, hi⟩) j; simpa using this]
  trivial

end mats
end Spffl

namespace Spffl.Expr
open Res VText Props.Expr90

/-! ### The values of the expressions -/

/-- The value of an expression of the matrix calculator. -/
inductive MVal (F : Type)
  | mat {m n : ℕ} (M : Matrix (Fin m) (Fin n) F)
  | scalar (x : F)
  | int (k : ℤ)

section sem
variable {F : Type} [CommRing F]

/-- What the prefix operators mean; `none` is an error. -/
inductive MUn : Op → MVal F → Option (MVal F) → Prop
  | neg {m n} (M : Matrix (Fin m) (Fin n) F) : MUn .uminus (.mat M) (some (.mat (-M)))
  | transpose {m n} (M : Matrix (Fin m) (Fin n) F) : MUn .transpose (.mat M) (some (.mat M.transpose))
  | det {n} (M : Matrix (Fin n) (Fin n) F) : MUn .det (.mat M) (some (.scalar M.det))
  | det_err {m n} {M : Matrix (Fin m) (Fin n) F} : m ≠ n → MUn .det (.mat M) none
  | rank {m n} (M : Matrix (Fin m) (Fin n) F) : MUn .rank (.mat M) (some (.int M.rank))
  | inv {m n} {M : Matrix (Fin m) (Fin n) F} {N : Matrix (Fin n) (Fin m) F} : M * N = 1 → N * M = 1 → MUn .inv (.mat M) (some (.mat N))
  | inv_err {m n} {M : Matrix (Fin m) (Fin n) F} : (∀ N : Matrix (Fin n) (Fin m) F, ¬ (M * N = 1 ∧ N * M = 1)) → MUn .inv (.mat M) none
  /-- The rows of `K` are a basis of the kernel. -/
  | kerbas {m n d} {M : Matrix (Fin m) (Fin n) F} {K : Matrix (Fin d) (Fin n) F} : 0 < d → LinearIndependent F (fun i => K i) →
    Submodule.span F (Set.range fun i => K i) = LinearMap.ker M.mulVecLin → MUn .kerbas (.mat M) (some (.mat K))
  | kerbas_err {m n} {M : Matrix (Fin m) (Fin n) F} : (∀ x, M.mulVec x = 0 → x = 0) → MUn .kerbas (.mat M) none
  | rr {m n r} {M R : Matrix (Fin m) (Fin n) F} {p : Fin r → Fin n} : IsEchelon R r p → RowEquiv M R → MUn .rr (.mat M) (some (.mat R))
  | rech {m n r} {M R : Matrix (Fin m) (Fin n) F} {p : Fin r → Fin n} : IsReduced R r p → RowEquiv M R → MUn .rech (.mat M) (some (.mat R))
  /-- With the order of rows and that of columns reversed, the result is a reduced row echelon form. -/
  | rechr {m n r} {M R : Matrix (Fin m) (Fin n) F} {p : Fin r → Fin n} : IsReduced (R.submatrix Fin.rev Fin.rev) r p → RowEquiv M R →
    MUn .rechr (.mat M) (some (.mat R))
  | rrnz {m n r} {M : Matrix (Fin m) (Fin n) F} {R : Matrix (Fin r) (Fin n) F} {p : Fin r → Fin n} : 0 < r → IsEchelon R r p →
    Submodule.span F (Set.range R.row) = Submodule.span F (Set.range M.row) → MUn .rrnz (.mat M) (some (.mat R))
  | rrnz_err {m n} {M : Matrix (Fin m) (Fin n) F} : M = 0 → MUn .rrnz (.mat M) none
  | rechnz {m n r} {M : Matrix (Fin m) (Fin n) F} {R : Matrix (Fin r) (Fin n) F} {p : Fin r → Fin n} : 0 < r → IsReduced R r p →
    Submodule.span F (Set.range R.row) = Submodule.span F (Set.range M.row) → MUn .rechnz (.mat M) (some (.mat R))
  | rechnz_err {m n} {M : Matrix (Fin m) (Fin n) F} : M = 0 → MUn .rechnz (.mat M) none
  | scalar (o : Op) (x : F) : MUn o (.scalar x) none
  | int (o : Op) (k : ℤ) : MUn o (.int k) none
  | other {o : Op} (v : MVal F) : o ≠ .uminus → matPre o = false → MUn o v none

def MVal.isMat : MVal F → Bool
  | .mat _ => true
  | _ => false

def MVal.isInt : MVal F → Bool
  | .int _ => true
  | _ => false

/-- What the infix operators mean. -/
inductive MBin : Op → MVal F → MVal F → Option (MVal F) → Prop
  | add {m n} (M N : Matrix (Fin m) (Fin n) F) : MBin .plus (.mat M) (.mat N) (some (.mat (M + N)))
  | sub {m n} (M N : Matrix (Fin m) (Fin n) F) : MBin .minus (.mat M) (.mat N) (some (.mat (M - N)))
  | eq {m n} {M N : Matrix (Fin m) (Fin n) F} : M = N → MBin .eq (.mat M) (.mat N) (some (.int 1))
  | eq_not {m n} {M N : Matrix (Fin m) (Fin n) F} : M ≠ N → MBin .eq (.mat M) (.mat N) (some (.int 0))
  | ne {m n} {M N : Matrix (Fin m) (Fin n) F} : M ≠ N → MBin .ne (.mat M) (.mat N) (some (.int 1))
  | ne_not {m n} {M N : Matrix (Fin m) (Fin n) F} : M = N → MBin .ne (.mat M) (.mat N) (some (.int 0))
  | dims {o m n m' n'} {M : Matrix (Fin m) (Fin n) F} {N : Matrix (Fin m') (Fin n') F} : o ∈ [Op.plus, .minus, .eq, .ne] → (m, n) ≠ (m', n') →
    MBin o (.mat M) (.mat N) none
  | mul {m n k} (M : Matrix (Fin m) (Fin n) F) (N : Matrix (Fin n) (Fin k) F) : MBin .mul (.mat M) (.mat N) (some (.mat (M * N)))
  | mul_err {m n m' n'} {M : Matrix (Fin m) (Fin n) F} {N : Matrix (Fin m') (Fin n') F} : n ≠ m' → MBin .mul (.mat M) (.mat N) none
  | pow {n k} {M : Matrix (Fin n) (Fin n) F} : 1 ≤ k → MBin .exp (.mat M) (.int k) (some (.mat (M ^ k.toNat)))
  | pow_inv {n k} {M N : Matrix (Fin n) (Fin n) F} : k ≤ 0 → M * N = 1 → MBin .exp (.mat M) (.int k) (some (.mat (N ^ (-k).toNat)))
  | pow_sing {n k} {M : Matrix (Fin n) (Fin n) F} : k ≤ 0 → (∀ N, M * N ≠ 1) → MBin .exp (.mat M) (.int k) none
  | pow_err {m n k} {M : Matrix (Fin m) (Fin n) F} : m ≠ n → MBin .exp (.mat M) (.int k) none
  | exp_err {v w : MVal F} : (v.isMat && w.isInt) = false → MBin .exp v w none
  | mat_err {o} {v w : MVal F} : o ≠ .exp → (v.isMat && w.isMat) = false → MBin o v w none
  | other {o} (v w : MVal F) : o ∉ [Op.plus, .minus, .mul, .exp, .eq, .ne] → MBin o v w none

/-- What an expression means, given the literals.  To the right of `^` literals are integers. -/
inductive MDen (Lit : String → Option (MVal F) → Prop) : Bool → Tree → Option (MVal F) → Prop
  | lit {s r} : Lit s r → MDen Lit false (.lit s) r
  | int (s) : MDen Lit true (.lit s) ((intLit s).map .int)
  | un {b o t v r} : MDen Lit b t (some v) → MUn o v r → MDen Lit b (.un o t) r
  | un_err {b o t} : MDen Lit b t none → MDen Lit b (.un o t) none
  | bin {b o t u v w r} : MDen Lit b t (some v) → MDen Lit (b || o = .exp) u (some w) → MBin o v w r → MDen Lit b (.bin o t u) r
  | left_err {b o t u} : MDen Lit b t none → MDen Lit b (.bin o t u) none
  | right_err {b o t u} : MDen Lit (b || o = .exp) u none → MDen Lit b (.bin o t u) none

end sem

/-! ### Outcomes -/

/-- An outcome: a value, or an exception in the place of `none`. -/
def Out {β V : Type} (U : Prop) (r : Res β) (rp : β → V → Prop) (S : Option V → Prop) : Prop :=
  match r with
  | ok b => ∃ v, rp b v ∧ S (some v)
  | .throw => S none
  | ub => U
  | timeout => False

section out
variable {β γ V W : Type} {U : Prop}

theorem Out.bind {r : Res β} {rp : β → V → Prop} {S : Option V → Prop} {f : β → Res γ} {rq : γ → W → Prop} {T : Option W → Prop}
    (h : Out U r rp S) (hf : ∀ b v, r = ok b → rp b v → S (some v) → Out U (f b) rq T) (he : S none → T none) : Out U (r >>= f) rq T := by
  cases r with
  | ok b => obtain ⟨v, h1, h2⟩ := h; exact hf b v rfl h1 h2
  | throw => exact he h
  | ub => exact h
  | timeout => exact h

theorem Out.of_sat {r : Res β} {rq : β → W → Prop} {T : Option W → Prop} (h : r.Sat U fun b => ∃ v, rq b v ∧ T (some v)) : Out U r rq T := by
  cases r with
  | ok b => exact h
  | throw => exact h.elim
  | ub => exact h
  | timeout => exact h

theorem Out.sat_bind {r : Res β} {P : β → Prop} {f : β → Res γ} {rq : γ → W → Prop} {T : Option W → Prop} (h : r.Sat U P)
    (hf : ∀ b, P b → Out U (f b) rq T) : Out U (r >>= f) rq T := by
  cases r with
  | ok b => exact hf b h
  | throw => exact h.elim
  | ub => exact h
  | timeout => exact h

theorem Out.of_throws {r : Res β} {rq : β → W → Prop} {T : Option W → Prop} (h : r.Throws U) (ht : T none) : Out U r rq T := by
  rcases h with rfl | ⟨h, rfl⟩
  · exact ht
  · exact h

theorem Out.mono {r : Res β} {rp : β → V → Prop} {S T : Option V → Prop} (h : Out U r rp S) (hs : ∀ o, S o → T o) : Out U r rp T := by
  cases r with
  | ok b => obtain ⟨v, h1, h2⟩ := h; exact ⟨v, h1, hs _ h2⟩
  | throw => exact hs _ h
  | ub => exact h
  | timeout => exact h

end out

/-! ### The operators -/

section ring
variable {U : Prop} {α F : Type} [CommRing F] {O : TOps α} {rep : α → F → Prop} {zero one : α}

/-- The object represents the value. -/
def MARep (rep : α → F → Prop) : MAtom (TMat α) α → MVal F → Prop
  | .mat A, .mat (m := m) (n := n) M => 0 < m ∧ 0 < n ∧ MRep rep A M
  | .scalar a, .scalar x => rep a x
  | .int n, .int k => n = k
  | _, _ => False

theorem out_mat {m n : ℕ} {r : Res (TMat α)} {P : Matrix (Fin m) (Fin n) F → Prop} (hm : 0 < m) (hn : 0 < n) {T : Option (MVal F) → Prop}
    (h : r.Sat U fun A => ∃ M, MRep rep A M ∧ P M) (hT : ∀ M, P M → T (some (.mat M))) :
    Out U (r >>= fun c => ok (MAtom.mat (α := α) c)) (MARep rep) T :=
  Out.sat_bind h fun _ ⟨M, hA, hP⟩ => ⟨.mat M, ⟨hm, hn, hA⟩, hT M hP⟩

theorem matBin_gen (H : EltRef U O rep) {a b : MAtom (TMat α) α} {v w : MVal F}
    (ha : MARep rep a v) (hb : MARep rep b w) (o : Op) (hp : ∀ {A m n} {M : Matrix (Fin m) (Fin n) F} {k}, o = .exp → b = .int k → 0 < m → 0 < n → MRep rep A M →
      Out U (matBin (matOps O zero one) .exp (.mat A) (.int k)) (MARep rep) (MBin .exp (.mat M) (.int k))) :
    Out U (matBin (matOps O zero one) o a b) (MARep rep) (MBin o v w) := by
  by_cases ho : o ∈ [Op.plus, .minus, .mul, .exp, .eq, .ne]
  swap
  · have : matBin (matOps O zero one) o a b = .throw := by
      simp only [List.mem_cons, List.not_mem_nil, or_false, not_or] at ho
      cases o <;> simp_all [matBin]
    rw [this]
    exact .other v w ho
  by_cases he : o = .exp
  · subst he
    cases a <;> cases v <;> first | exact ha.elim | skip
    case mat.mat A m n M =>
      obtain ⟨hm, hn, hA⟩ := ha
      cases b <;> cases w <;> first | exact hb.elim | skip
      case int.int k k' =>
        have hb : k = k' := hb
        subst hb
        exact hp rfl rfl hm hn hA
      all_goals exact .exp_err rfl
    all_goals exact .exp_err rfl
  · by_cases hmm : (v.isMat && w.isMat) = true
    swap
    · have hmm : (v.isMat && w.isMat) = false := by simpa using hmm
      have : matBin (matOps O zero one) o a b = .throw := by
        cases a <;> cases v <;> first | exact ha.elim | skip
        all_goals cases b <;> cases w <;> first | exact hb.elim | skip
        all_goals first
          | (exfalso; simp [MVal.isMat] at hmm; done)
          | (cases o <;> first | rfl | exact absurd rfl he)
      rw [this]
      exact .mat_err he hmm
    · cases a <;> cases v <;> first | exact ha.elim | (exfalso; simp [MVal.isMat] at hmm; done) | skip
      cases b <;> cases w <;> first | exact hb.elim | (exfalso; simp [MVal.isMat] at hmm; done) | skip
      rename_i A m n M B m' n' N
      obtain ⟨hm, hn, hA⟩ := ha
      obtain ⟨hm', hn', hB⟩ := hb
      by_cases hmul : o = .mul
      · subst hmul
        by_cases hd : n = m'
        · subst hd
          exact out_mat hm hn' (P := fun R => R = M * N)
            ((mul_sat' (M := M) (N := N) H hm hn' hn hA hB).mono fun r hr => ⟨_, hr, rfl⟩) fun _ e => e ▸ .mul M N
        · refine Out.of_throws (.inl ?_) (.mul_err hd)
          show (TMat.mul O A B >>= _) = .throw
          rw [mul_throw (by rw [hA.shape.nc, hB.shape.nr]; exact hd)]
          rfl
      · have ho' : o ∈ [Op.plus, .minus, .eq, .ne] := by
          simp only [List.mem_cons, List.not_mem_nil, or_false] at ho ⊢
          tauto
        by_cases hd : (m, n) = (m', n')
        · obtain ⟨rfl, rfl⟩ := Prod.mk.inj hd
          simp only [List.mem_cons, List.not_mem_nil, or_false] at ho'
          rcases ho' with rfl | rfl | rfl | rfl
          · exact out_mat hm hn ((add_sat' H hm hn hA hB).mono fun r hr => ⟨_, hr, rfl⟩) fun _ e => e ▸ .add M N
          · exact out_mat hm hn ((sub_sat' H hm hn hA hB).mono fun r hr => ⟨_, hr, rfl⟩) fun _ e => e ▸ .sub M N
          · refine Out.sat_bind (meq_sat H hA hB) fun r hr => ?_
            cases r with
            | true => exact ⟨.int 1, rfl, .eq (hr.1 rfl)⟩
            | false => exact ⟨.int 0, rfl, .eq_not fun e => absurd (hr.2 e) (by simp)⟩
          · show Out U ((TMat.eq O A B >>= fun r => ok (!r)) >>= _) _ _
            rw [bind_assoc]
            refine Out.sat_bind (meq_sat H hA hB) fun r hr => ?_
            cases r with
            | true => exact ⟨.int 0, rfl, .ne_not (hr.1 rfl)⟩
            | false => exact ⟨.int 1, rfl, .ne fun e => absurd (hr.2 e) (by simp)⟩
        · have hne : A.num_rows ≠ B.num_rows ∨ A.num_cols ≠ B.num_cols := by
            rw [hA.shape.nr, hA.shape.nc, hB.shape.nr, hB.shape.nc]
            by_contra hc
            simp only [ne_eq, not_or, not_not] at hc
            exact hd (by rw [hc.1, hc.2])
          have heq : TMat.eq O A B = .throw := by unfold TMat.eq TMat.check_dims; rw [if_pos hne]; rfl
          have : matBin (matOps O zero one) o (.mat A) (.mat B) = .throw := by
            simp only [List.mem_cons, List.not_mem_nil, or_false] at ho'
            rcases ho' with rfl | rfl | rfl | rfl
            · show (TMat.comp O O.add A B >>= _) = _; rw [mcomp_throw hne]; rfl
            · show (TMat.comp O O.sub A B >>= _) = _; rw [mcomp_throw hne]; rfl
            · show (TMat.eq O A B >>= _) = _; rw [heq]; rfl
            · show ((TMat.eq O A B >>= _) >>= _) = _; rw [heq]; rfl
          rw [this]
          exact .dims ho' hd

end ring

section ops
variable {U : Prop} {α F : Type} [Field F] {O : TOps α} {rep : α → F → Prop} {zero one : α}

theorem no_inverse {m n : ℕ} (hmn : m ≠ n) (M : Matrix (Fin m) (Fin n) F) (N : Matrix (Fin n) (Fin m) F) : ¬ (M * N = 1 ∧ N * M = 1) := by
  rintro ⟨h1, h2⟩
  have := Matrix.square_of_invertible M N h1 h2
  simp at this
  exact hmn this

/-- The expression has a unary minus or `kerbas`: the operators that use the minus of the elements. -/
def Minus : Tree → Prop
  | .lit _ => False
  | .un o t => o = .uminus ∨ o = .kerbas ∨ Minus t
  | .bin _ t u => Minus t ∨ Minus u

theorem matUn_out (H : EltRef U O rep) (h0 : rep zero 0) (h1 : rep one 1) {a : MAtom (TMat α) α} {v : MVal F}
    (h : MARep rep a v) (o : Op) (N : o = .uminus ∨ o = .kerbas → NegRef U O rep) : Out U (matUn (matOps O zero one) o a) (MARep rep) (MUn o v) := by
  cases a with
  | scalar a =>
    cases v with
    | scalar x => cases o <;> exact .scalar _ x
    | mat _ => exact h.elim
    | int _ => exact h.elim
  | int a =>
    cases v with
    | int x => cases o <;> exact .int _ x
    | mat _ => exact h.elim
    | scalar _ => exact h.elim
  | mat A =>
    cases v with
    | scalar x => exact h.elim
    | int _ => exact h.elim
    | @mat m n M =>
      obtain ⟨hm, hn, hA⟩ := h
      cases o with
      | uminus => exact out_mat hm hn ((neg_sat' (N (.inl rfl)) hm hn hA).mono fun r hr => ⟨_, hr, rfl⟩) fun _ e => e ▸ .neg M
      | transpose => exact out_mat hn hm ((transpose_sat hm hn hA).mono fun r hr => ⟨_, hr, rfl⟩) fun _ e => e ▸ .transpose M
      | rr => exact out_mat hm hn (rr_sat H hm hn hA) fun R ⟨⟨r, p, h⟩, h'⟩ => .rr h h'
      | rech => exact out_mat hm hn (ref_sat H hm hn hA) fun R ⟨⟨r, p, h⟩, h'⟩ => .rech h h'
      | rechr =>
        have := rechr_sat (U := U) H hm hn hA
        have e : matUn (matOps O zero one) .rechr (.mat A) =
            ((do let c ← TMat.flip_horiz O A; let c ← TMat.row_echelon_form O c; TMat.flip_horiz_vert O c) >>= fun c => ok (MAtom.mat c)) := by
          show (TMat.flip_horiz O A >>= fun c => TMat.row_echelon_form O c >>= fun c => TMat.flip_horiz_vert O c >>= fun c => ok (MAtom.mat c)) = _
          simp only [bind_assoc]
        rw [e]
        exact out_mat hm hn this fun R ⟨⟨r, p, h⟩, h'⟩ => .rechr h h'
      | det =>
        by_cases hmn : m = n
        · subst hmn
          exact Out.sat_bind (det_sat H hm hA) fun r hr => ⟨.scalar M.det, hr, .det M⟩
        · refine Out.of_throws (.inl ?_) (.det_err hmn)
          show (TMat.det O A >>= _) = .throw
          rw [show TMat.det O A = .throw by unfold TMat.det TMat.is_square; simp [hA.shape.nr, hA.shape.nc, hmn]]
          rfl
      | rank =>
        refine Out.sat_bind (r := (TMat.get_rank O A >>= fun r => ok (r : ℤ))) (P := fun k => k = M.rank) ?_ fun r hr => ⟨.int M.rank, hr, .rank M⟩
        exact (rank_sat H hm hn hA).bind fun r hr => by rw [hr]; rfl
      | inv =>
        by_cases hmn : m = n
        · subst hmn
          show Out U ((TMat.inverse O A >>= fun r => ok (if r.1 then r.2 else none)) >>= _) _ _
          rw [bind_assoc]
          refine Out.sat_bind (inverse_sat H hm hA) fun r hr => ?_
          obtain ⟨b, o⟩ := r
          obtain ⟨hu, hB⟩ := hr
          cases b with
          | false =>
            refine .inv_err fun N hN => ?_
            have : IsUnit M := IsUnit.of_mul_eq_one N hN.1
            exact absurd (hu.2 this) (by simp)
          | true =>
            obtain ⟨B, N, hB, hBN, h2, h1⟩ := hB rfl
            simp only at hB
            subst hB
            show Out U (TMat.check_inverse O A B >>= fun _ => ok (MAtom.mat B)) _ _
            exact Out.sat_bind (check_inverse_sat H hm hA hBN h1 h2) fun _ _ => ⟨.mat N, ⟨hm, hm, hBN⟩, .inv h1 h2⟩
        · refine Out.of_throws ?_ (.inv_err (no_inverse hmn M))
          show Throws U ((TMat.inverse O A >>= fun r => ok (if r.1 then r.2 else none)) >>= _)
          rw [bind_assoc]
          refine Throws.bind ?_
          unfold TMat.inverse TMat.is_square
          refine (get_sat (hA.at hm hn)).throws_bind fun a ha => (H.sub ha ha).throws_bind fun z hz => ?_
          rw [hA.shape.nr, hA.shape.nc]
          simp only [beq_eq_false_iff_ne.2 hmn, Bool.not_false, if_true]
          exact .inl rfl
      | kerbas =>
        refine Out.sat_bind (kernel_sat H (N (.inr rfl)) hm hn hA h0 h1) fun r hr => ?_
        cases r with
        | none =>
          refine .kerbas_err fun x hx => ?_
          have : x ∈ LinearMap.ker M.mulVecLin := by simpa using hx
          rw [show LinearMap.ker M.mulVecLin = ⊥ from hr] at this
          simpa using this
        | some B =>
          obtain ⟨d, -, hd, K, hK, hl, hs⟩ := hr
          show Out U (TMat.check_kernel_basis O A B >>= fun _ => ok (MAtom.mat B)) _ _
          refine Out.sat_bind (check_kernel_basis_sat H hm hn hA hK fun i => ?_) fun _ _ => ⟨.mat K, ⟨hd, hn, hK⟩, .kerbas hd hl hs⟩
          have : K i ∈ LinearMap.ker M.mulVecLin := hs ▸ Submodule.subset_span ⟨i, rfl⟩
          simpa using this
      | rrnz =>
        refine Out.sat_bind (rrnz_sat H hm hn hA) fun r hr => ?_
        rcases hr with ⟨hM, rfl⟩ | ⟨B, rfl, r, h0, R, hR, ⟨p, hp⟩, hs⟩
        · exact .rrnz_err hM
        · exact ⟨.mat R, ⟨h0, hn, hR⟩, .rrnz h0 hp hs⟩
      | rechnz =>
        refine Out.sat_bind (rechnz_sat H hm hn hA) fun r hr => ?_
        rcases hr with ⟨hM, rfl⟩ | ⟨B, rfl, r, h0, R, hR, ⟨p, hp⟩, hs⟩
        · exact .rechnz_err hM
        · exact ⟨.mat R, ⟨h0, hn, hR⟩, .rechnz h0 hp hs⟩
      | _ => exact .other _ (by simp) rfl

theorem matPow_out (H : EltRef U O rep) {A : TMat α} {m n : ℕ} {M : Matrix (Fin m) (Fin n) F} (hm : 0 < m) (hn : 0 < n) (hA : MRep rep A M) {k : ℤ}
    (hk : InInt k) (hmin : k = INT_MIN → U) :
    Out U (matBin (matOps O zero one) .exp (.mat A) (.int k)) (MARep rep) (MBin .exp (.mat M) (.int k)) := by
  show Out U ((TMat.exp O A k >>= fun r => ok (if r.1 then r.2 else none)) >>= fun r => orThrow r >>= fun c => ok (MAtom.mat c)) _ _
  rw [bind_assoc]
  by_cases hmn : m = n
  · subst hmn
    by_cases h1 : 1 ≤ k
    · refine Out.sat_bind (exp_pos_sat H hm hA hk h1) ?_
      rintro ⟨b, o⟩ ⟨hb, B, ho, hB⟩
      simp only at hb ho
      subst hb ho
      exact ⟨.mat _, ⟨hm, hm, hB⟩, .pow h1⟩
    · by_cases hM : M = 0
      · subst hM
        refine Out.of_throws (exp_zeromat H hm hA (by omega)).bind (.pow_sing (by omega) fun N hN => ?_)
        rw [Matrix.zero_mul] at hN
        have := congrFun (congrFun hN ⟨0, hm⟩) ⟨0, hm⟩
        simp at this
      · have key : ∀ {r : Bool × Option (TMat α)} {N' : Matrix (Fin m) (Fin m) F}, (∀ N, M * N = 1 → N' = N ^ (-k).toNat) →
            ((r.1 = true ↔ IsUnit M) ∧ (r.1 = true → ∃ B, r.2 = some B ∧ MRep rep B N')) →
            Out U (ok (if r.1 then r.2 else none) >>= fun r => orThrow r >>= fun c => ok (MAtom.mat (α := α) c)) (MARep rep)
              (MBin .exp (.mat M) (.int k)) := by
          rintro ⟨b, o⟩ N' hN' ⟨hu, hB⟩
          cases b with
          | false =>
            refine .pow_sing (by omega) fun N hN => ?_
            have : IsUnit M := IsUnit.of_mul_eq_one N hN
            exact absurd (hu.2 this) (by simp)
          | true =>
            obtain ⟨B, ho, hBN⟩ := hB rfl
            simp only at ho
            subst ho
            obtain ⟨u, hu⟩ := hu.1 rfl
            have h1 : M * (u⁻¹ : (Matrix (Fin m) (Fin m) F)ˣ) = 1 := by rw [← hu]; exact u.mul_inv
            refine ⟨.mat N', ⟨hm, hm, hBN⟩, ?_⟩
            rw [hN' _ h1]
            exact .pow_inv (by omega) h1
        by_cases hk0 : k = 0
        · subst hk0
          exact Out.sat_bind (exp_zero_sat H hm hA hM) fun r hr => key (by simp) hr
        · by_cases hkm : k = INT_MIN
          · have hU := hmin hkm
            have : (TMat.exp O A k).Sat U fun r => (r.1 = true ↔ IsUnit M) ∧ (r.1 = true → False) := by
              unfold TMat.exp TMat.is_square
              rw [hA.shape.nr, hA.shape.nc]
              simp only [beq_self_eq_true, Bool.not_true, Bool.false_eq_true, if_false]
              refine (get_sat (hA.at hm hm)).bind fun a ha => (H.sub ha ha).bind fun z hz => ?_
              rw [sub_self] at hz
              refine (find_one_sat H hm hm hA).bind fun o ho => ?_
              cases o with
              | none => exact absurd ho hM
              | some one =>
                refine (make_I_sat hA hz ho.2).bind fun I hI => ?_
                rw [if_neg (by omega)]
                refine (inverse_sat H hm hA).bind fun iv hiv => ?_
                obtain ⟨b, o⟩ := iv
                obtain ⟨g1, g2⟩ := hiv
                cases b with
                | false =>
                  have : ¬ IsUnit M := fun h => by simpa using g1.mpr h
                  simp [this]
                | true =>
                  obtain ⟨B, N, hB, _⟩ := g2 rfl
                  simp only at hB; subst hB
                  dsimp only
                  rw [if_neg (by omega), show ineg k = ub from chk_ub (by rw [hkm]; unfold InInt INT_MIN; omega)]
                  exact hU
            refine Out.sat_bind this fun r hr => ?_
            obtain ⟨b, o⟩ := r
            cases b with
            | false =>
              refine .pow_sing (by omega) fun N hN => ?_
              have : IsUnit M := IsUnit.of_mul_eq_one N hN
              exact absurd (hr.1.2 this) (by simp)
            | true => exact (hr.2 rfl).elim
          · refine Out.sat_bind (exp_neg_sat H hm hA hM hk (by omega) hkm) fun r hr => key (fun N hN => ?_) hr
            rw [Matrix.inv_eq_right_inv hN]
  · refine Out.of_throws (.inl ?_) (.pow_err hmn)
    rw [show TMat.exp O A k = .throw by unfold TMat.exp TMat.is_square; simp [hA.shape.nr, hA.shape.nc, hmn]]
    rfl

theorem matBin_out (H : EltRef U O rep) {a b : MAtom (TMat α) α} {v w : MVal F}
    (ha : MARep rep a v) (hb : MARep rep b w) (o : Op) (hi : ∀ k, o = .exp → b = .int k → InInt k ∧ (k = INT_MIN → U)) :
    Out U (matBin (matOps O zero one) o a b) (MARep rep) (MBin o v w) :=
  matBin_gen H ha hb o fun ho hk hm hn hA => matPow_out H hm hn hA (hi _ ho hk).1 (hi _ ho hk).2

/-! ### Expressions -/

/-- To the right of `^`, a value is an integer literal. -/
theorem mat_eval_pow {O : MOps (TMat α) α} {scan : String → Res (TMat α)} {scanI : String → Res Int} (t : Tree) :
    ∀ a, eval (matrix O scan scanI) true t = ok a → ∃ n s, a = .int n ∧ (true, s) ∈ t.lits true ∧ scanI s = ok n := by
  have nb : ∀ {β γ : Type} {r : Res β} {f : β → Res γ} {c : γ}, r >>= f = ok c → ∃ b, r = ok b ∧ f b = ok c := by
    intro β γ r f c h
    cases r with
    | ok b => exact ⟨b, rfl, h⟩
    | _ => cases h
  induction t with
  | lit s =>
    intro a h
    obtain ⟨n, h1, h2⟩ := nb (show (scanI s >>= fun n => ok (MAtom.int n)) = ok a from h)
    cases h2
    exact ⟨n, s, rfl, by simp [Tree.lits], h1⟩
  | un o t ih =>
    intro a h
    obtain ⟨v, h1, h2⟩ := nb (show (eval (matrix O scan scanI) true t >>= fun a => matUn O o a) = ok a from h)
    obtain ⟨n, s, rfl, _⟩ := ih v h1
    cases o <;> cases h2
  | bin o t u ih1 ih2 =>
    intro a h
    obtain ⟨v, h1, h2⟩ := nb (show (eval (matrix O scan scanI) true t >>= fun a => eval (matrix O scan scanI) (true || o = .exp) u >>= fun b => matBin O o a b) = ok a from h)
    obtain ⟨n, s, rfl, _⟩ := ih1 v h1
    obtain ⟨w, h3, h4⟩ := nb h2
    cases o <;> cases h4

theorem mat_eval_out (H : EltRef U O rep) (h0 : rep zero 0) (h1 : rep one 1) {scan : String → Res (TMat α)}
    {Lit : String → Option (MVal F) → Prop} (t : Tree) : ∀ (b : Bool), (Minus t → NegRef U O rep) →
    (∀ s, (false, s) ∈ t.lits b → Out U (scan s >>= fun a => ok (.mat a)) (MARep rep) (Lit s)) →
    (∀ s n, (true, s) ∈ t.lits b → Scan.readInt s.toList = ok n → n = INT_MIN → U) →
    Out U (eval (matrix (matOps O zero one) scan (fun s => Scan.readInt s.toList)) b t) (MARep rep) (MDen Lit b t) := by
  induction t with
  | lit s =>
    intro b N hl hx
    cases b with
    | false => exact (hl s (by simp [Tree.lits])).mono fun r hr => .lit hr
    | true =>
      show Out U (Scan.readInt s.toList >>= fun n => ok (MAtom.int n)) _ _
      have hr := intLit_right s
      have hi := MDen.int (Lit := Lit) s
      cases hl : intLit s with
      | none =>
        rw [hl] at hr hi
        exact Out.of_throws (Throws.bind (.inl (throws_false.1 hr))) hi
      | some k =>
        rw [hl] at hr hi
        obtain ⟨n, e, hn, _⟩ := sat_false.1 hr
        rw [e]
        exact ⟨.int k, hn, hi⟩
  | un o t ih =>
    intro b N hl hx
    exact (ih b (fun h => N (.inr (.inr h))) hl hx).bind (fun a v _ ha hv => (matUn_out H h0 h1 ha o fun h => N (h.elim .inl fun h => .inr (.inl h))).mono fun r hr => .un hv hr) .un_err
  | bin o t u ih1 ih2 =>
    intro b N hl hx
    have ml : ∀ {x}, x ∈ t.lits b → x ∈ (Tree.bin o t u).lits b := fun h => by simp [Tree.lits, h]
    have mr : ∀ {x}, x ∈ u.lits (b || o = .exp) → x ∈ (Tree.bin o t u).lits b := fun h => by simp only [Tree.lits, List.mem_append]; exact .inr h
    refine (ih1 b (fun h => N (.inl h)) (fun s hs => hl s (ml hs)) fun s n hs => hx s n (ml hs)).bind (fun a v _ ha hv => ?_) .left_err
    refine (ih2 _ (fun h => N (.inr h)) (fun s hs => hl s (mr hs)) fun s n hs => hx s n (mr hs)).bind (fun c w hc hcw hw => ?_) .right_err
    refine (matBin_out H ha hcw o fun k ho hk => ?_).mono fun r hr => .bin hv hw hr
    subst ho hk
    simp only [decide_true, Bool.or_true] at hc mr
    obtain ⟨n, s, hn, hs, hr⟩ := mat_eval_pow u _ hc
    cases hn
    exact ⟨((Scan.readInt_ok_iff _ k).1 hr).1, hx s k (mr hs) hr⟩

end ops

/-! ### Texts -/

section text
variable {U : Prop} {α F : Type} [CommRing F] {O : TOps α} {rep : α → F → Prop} {zero one : α}

/-- The rows of a matrix, from the top. -/
def rowsOf {m n : ℕ} (M : Matrix (Fin m) (Fin n) F) : List (List F) := List.ofFn fun i => List.ofFn (M i)

/-- The text printed for a value. -/
def MShows (Text : List Char → F → Prop) (w : List Char) : MVal F → Prop
  | .mat M => ∃ ts, w = lines ts ∧ List.Forall₂ (fun t xs => RowLine Text 0 t xs) ts (rowsOf M)
  | .scalar x => ∃ t, w = t ++ ['\n'] ∧ Text t x
  | .int k => w = Scan.showInt k ++ ['\n']

omit [CommRing F] in
theorem forall₂_ofFn {β γ : Type} {R : β → γ → Prop} {l : List β} {n : ℕ} {f : Fin n → γ} (hl : l.length = n)
    (h : ∀ (i : Fin n) (b : β), l[(i : ℕ)]? = some b → R b (f i)) : List.Forall₂ R l (List.ofFn f) := by
  rw [List.forall₂_iff_get]
  refine ⟨by simp [hl], fun i h1 h2 => ?_⟩
  have := h ⟨i, by omega⟩ l[i] (by simp [h1])
  simpa using this

omit [CommRing F] in
theorem list_rep {A : TMat α} {m n : ℕ} {M : Matrix (Fin m) (Fin n) F} (hA : MRep rep A M) :
    VText.MRep rep { A with rows := A.rows.take A.num_rows } (rowsOf M) := by
  refine ⟨by simp [rowsOf, hA.shape.nr], ?_, ?_⟩
  · intro xs hx
    simp only [rowsOf, List.mem_ofFn] at hx
    obtain ⟨i, rfl⟩ := hx
    simp [hA.shape.nc]
  · have hlen : (A.rows.take A.num_rows).length = m := by
      rw [List.length_take, hA.shape.nr]
      by_cases h : m = 0
      · omega
      · have := hA.shape.len (i := m - 1) (by omega); omega
    refine forall₂_ofFn hlen fun i r hr => ?_
    have hr : A.rows[(i : ℕ)]? = some r := by
      rw [List.getElem?_take] at hr
      rw [if_pos (by rw [hA.shape.nr]; exact i.2)] at hr
      exact hr
    obtain ⟨r', hr', hl⟩ := hA.shape.row i i.2
    rw [hr] at hr'
    cases hr'
    refine forall₂_ofFn hl fun j a ha => ?_
    obtain ⟨e, he, hrep⟩ := hA.ent i j
    unfold ent at he
    rw [hr] at he
    simp only [Option.bind_some] at he
    rw [ha] at he
    cases he
    exact hrep

omit [CommRing F] in
theorem forall₂_get? {β γ : Type} {R : β → γ → Prop} {l : List β} {n : ℕ} {f : Fin n → γ} (h : List.Forall₂ R l (List.ofFn f)) (i : Fin n) :
    ∃ b, l[(i : ℕ)]? = some b ∧ R b (f i) := by
  rw [List.forall₂_iff_get] at h
  obtain ⟨hl, h⟩ := h
  simp only [List.length_ofFn] at hl
  have := h i (by rw [hl]; exact i.2) (by simp)
  exact ⟨l[(i : ℕ)]'(by rw [hl]; exact i.2), by simp [hl], by simpa using this⟩

omit [CommRing F] in
theorem mat_rep {A : TMat α} {m n : ℕ} {M : Matrix (Fin m) (Fin n) F} (hm : 0 < m) (hA : VText.MRep rep A (rowsOf M)) : MRep rep A M := by
  obtain ⟨h1, h2, h3⟩ := hA
  have hc : A.num_cols = n := by
    have := h2 (List.ofFn (M ⟨0, hm⟩)) (by simp only [rowsOf, List.mem_ofFn]; exact ⟨_, rfl⟩)
    simpa using this.symm
  refine ⟨⟨by simpa [rowsOf] using h1, hc, fun i hi => ?_⟩, fun i j => ?_⟩
  · obtain ⟨r, hr, hf⟩ := forall₂_get? h3 ⟨i, hi⟩
    exact ⟨r, hr, by simpa using hf.length_eq⟩
  · obtain ⟨r, hr, hf⟩ := forall₂_get? h3 i
    obtain ⟨a, ha, hrep⟩ := forall₂_get? hf j
    exact ⟨a, by unfold ent; rw [hr]; exact ha, hrep⟩

/-- The texts of literals: bracketed rows, bracketed elements for a column, or the name of a file that holds the matrix.
Rows of different lengths, a missing closing bracket and missing files are errors. -/
inductive MLit (Text : List Char → F → Prop) (files : String → Option (List Char)) : String → Option (MVal F) → Prop
  | rows {s : String} {m n : ℕ} {M : Matrix (Fin m) (Fin n) F} {pre bl post : List Char} {us : List (List Char × List Char)} :
    s.toList = pre ++ '[' :: (bl ++ (us.map fun u => '[' :: (u.1 ++ ']' :: u.2)).flatten ++ ']' :: post) →
    '[' ∉ pre → ']' ∉ post → (∀ c ∈ bl, c = ' ' ∨ c = '\t') →
    List.Forall₂ (fun u xs => VecText Text u.1 xs ∧ '[' ∉ u.2 ∧ ']' ∉ u.2) us (rowsOf M) → 0 < m → n ≤ 0x7fffffff → MLit Text files s (some (.mat M))
  | ragged {s : String} {xss : List (List F)} {pre bl post : List Char} {us : List (List Char × List Char)} :
    s.toList = pre ++ '[' :: (bl ++ (us.map fun u => '[' :: (u.1 ++ ']' :: u.2)).flatten ++ ']' :: post) →
    '[' ∉ pre → ']' ∉ post → (∀ c ∈ bl, c = ' ' ∨ c = '\t') →
    List.Forall₂ (fun u xs => VecText Text u.1 xs ∧ '[' ∉ u.2 ∧ ']' ∉ u.2) us xss → (∀ xs ∈ xss, xs.length ≤ 0x7fffffff) →
    (¬ ∃ c, ∀ xs ∈ xss, xs.length = c) → MLit Text files s none
  | column {s : String} {m : ℕ} {x : Fin m → F} {pre bl body post : List Char} :
    s.toList = pre ++ '[' :: (bl ++ body ++ ']' :: post) → '[' ∉ pre → ']' ∉ post → (∀ c ∈ bl, c = ' ' ∨ c = '\t') →
    (∀ c ∈ body.head?, c ≠ ' ' ∧ c ≠ '\t') → VecText Text body (List.ofFn x) →
    MLit Text files s (some (.mat (Matrix.of fun i (_ : Fin 1) => x i)))
  | file {s : String} {m n : ℕ} {M : Matrix (Fin m) (Fin n) F} {d0 d1 : ℕ} {els ls : List (List Char)} {tail : List Char} {st : Scan.IStream} :
    '[' ∉ s.toList → files s = some (lines els ++ (lines ls ++ tail)) → Empties 0 els d0 → Rows Text d0 ls (rowsOf M) d1 → Tail d1 tail st →
    0 < m → MLit Text files s (some (.mat M))
  | ragged_file {s : String} {xss : List (List F)} {d0 d1 : ℕ} {els ls : List (List Char)} {tail : List Char} {st : Scan.IStream} :
    '[' ∉ s.toList → files s = some (lines els ++ (lines ls ++ tail)) → Empties 0 els d0 → Rows Text d0 ls xss d1 → Tail d1 tail st →
    (¬ ∃ c, ∀ xs ∈ xss, xs.length = c) → MLit Text files s none
  | unclosed {s : String} {pre body : List Char} : s.toList = pre ++ '[' :: body → '[' ∉ pre → ']' ∉ body → MLit Text files s none
  | no_file {s : String} : '[' ∉ s.toList → files s = none → MLit Text files s none

variable {E : EltIO α} {Text : List Char → F → Prop} {files : String → Option (List Char)}

theorem primed_zero (H : EltSpec U E rep Text) (h0 : rep zero 0) : Primed U E rep (⟨1, 1, [[zero]]⟩ : TMat α) :=
  ⟨by simp, by simp, by simp, zero, rfl, H.sub h0⟩

omit [CommRing F] in
theorem rowsOf_ne {m n : ℕ} (hm : 0 < m) (M : Matrix (Fin m) (Fin n) F) : rowsOf M ≠ [] := by
  intro h
  have := congrArg List.length h
  simp [rowsOf] at this
  omega

omit [CommRing F] in
theorem rowsOf_len {m n : ℕ} {M : Matrix (Fin m) (Fin n) F} : ∀ xs ∈ rowsOf M, xs.length = n := by
  intro xs hx
  simp only [rowsOf, List.mem_ofFn] at hx
  obtain ⟨i, rfl⟩ := hx
  simp

omit [CommRing F] in
theorem vecText_pos {cs : List Char} {xs : List F} (h : VecText Text cs xs) : 0 < xs.length := by
  cases h <;> simp

theorem rows_le (H : EltSpec U E rep Text) {d d' : ℕ} {ls : List (List Char)} {xss : List (List F)} (h : Rows Text d ls xss d') :
    ∀ xs ∈ xss, xs.length ≤ (lines ls).length ∧ 0 < xs.length := by
  induction h with
  | nil => simp
  | @cons d d' lead l xs ls xss hr _ _ ih =>
    intro ys hy
    have e : (lines (l :: ls)).length = l.length + 1 + (lines ls).length := by
      have := congrArg List.length (lines_cons l ls [])
      simp only [List.append_nil, List.length_append, List.length_cons] at this
      omega
    rcases List.mem_cons.1 hy with rfl | hy
    · obtain ⟨ld, body, tr, cm, rfl, _, _, _, hb, _⟩ := hr
      have h1 := hb.length_le H
      have h2 := vecText_pos hb
      rw [e]
      simp only [List.length_append]
      omega
    · have := ih ys hy
      omega

theorem brackets_le (H : EltSpec U E rep Text) {us : List (List Char × List Char)} {xss : List (List F)}
    (h : List.Forall₂ (fun u xs => VecText Text u.1 xs ∧ '[' ∉ u.2 ∧ ']' ∉ u.2) us xss) :
    ∀ xs ∈ xss, xs.length ≤ ((us.map fun u => '[' :: (u.1 ++ ']' :: u.2)).flatten).length ∧ 0 < xs.length := by
  induction h with
  | nil => simp
  | @cons u xs us xss hu _ ih =>
    intro ys hy
    simp only [List.map_cons, List.flatten_cons, List.length_append, List.length_cons]
    rcases List.mem_cons.1 hy with rfl | hy
    · have := hu.1.length_le H
      have := vecText_pos hu.1
      omega
    · have := ih ys hy
      omega

theorem matScan_lit (H : EltSpec U E rep Text) (h0 : rep zero 0) {s : String} {r : Option (MVal F)} (hr : MLit Text files s r) :
    Out U (matScan E files zero s >>= fun a => ok (.mat a)) (MARep rep) (· = r) := by
  have hp := primed_zero H h0
  have fin : ∀ {m n : ℕ} {M : Matrix (Fin m) (Fin n) F} {A : TMat α}, 0 < m → 0 < n → VText.MRep rep A (rowsOf M) → some (.mat M) = r →
      Out U (ok (.mat A) : Res (MAtom (TMat α) α)) (MARep rep) (· = r) :=
    fun {m n M A} hm hn hA hl => ⟨.mat M, ⟨hm, hn, mat_rep hm hA⟩, hl⟩
  unfold matScan
  simp only
  have hmem : ∀ {pre bl post : List Char}, s.toList = pre ++ '[' :: (bl ++ post) → '[' ∈ s.toList := fun h => by rw [h]; simp
  cases hr with
  | @rows m n M pre bl post us hs h1 h2 h3 h4 hm hn =>
    have hle := brackets_le H h4
    have hne : us ≠ [] := by
      rintro rfl
      cases h4' : rowsOf M with
      | nil => exact rowsOf_ne hm M h4'
      | cons x xs => rw [h4'] at h4; cases h4
    have hn0 : 0 < n := by
      have := (hle (List.ofFn (M ⟨0, hm⟩)) (by simp only [rowsOf, List.mem_ofFn]; exact ⟨_, rfl⟩)).2
      simpa using this
    rw [if_pos (by rw [hs]; simp), bind_assoc]
    have hB := matBracket_rows (n := s.toList.length + 1) H hp h1 h2 h3 h4 hne (fun xs hx => by
      have := (hle xs hx).1
      rw [hs]
      simp only [List.length_append, List.length_cons]
      omega) (fun xs hx => by rw [rowsOf_len xs hx]; exact hn)
    rw [← hs] at hB
    refine Out.sat_bind hB fun o ho => ?_
    obtain ⟨B, rfl, hB⟩ := ho.1 ⟨n, rowsOf_len⟩
    exact fin hm hn0 hB rfl
  | @ragged xss pre bl post us hs h1 h2 h3 h4 hlen hno =>
    have hle := brackets_le H h4
    have hne : us ≠ [] := by
      rintro rfl
      cases h4
      exact hno ⟨0, by simp⟩
    rw [if_pos (by rw [hs]; simp), bind_assoc]
    have hB := matBracket_rows (n := s.toList.length + 1) H hp h1 h2 h3 h4 hne (fun xs hx => by
      have := (hle xs hx).1
      rw [hs]
      simp only [List.length_append, List.length_cons]
      omega) hlen
    rw [← hs] at hB
    refine Out.sat_bind hB fun o ho => ?_
    rw [ho.2 hno]
    exact rfl
  | @unclosed pre body hs h1 h2 =>
    rw [if_pos (by rw [hs]; simp), bind_assoc]
    unfold matBracket
    rw [if_neg (by simp)]
    have hg : (⟨1, 1, [[zero]]⟩ : TMat α).get 0 0 = ok zero := rfl
    rw [hg, ok_bind, ok_bind]
    simp only [bind_assoc]
    refine Out.sat_bind (H.sub h0) fun z _ => ?_
    rw [hs, VText.dropWhile_ne h1]
    dsimp only
    rw [if_neg h2]
    exact rfl
  | @column m x pre bl body post hs h1 h2 h3 h4 h5 =>
    have hle := h5.length_le H
    have hm : 0 < m := by simpa using vecText_pos h5
    rw [if_pos (by rw [hs]; simp), bind_assoc]
    have hB := matBracket_col (n := s.toList.length + 1) H hp h1 h2 h3 h4 h5 (by
      rw [hs]
      simp only [List.length_append, List.length_cons]
      omega)
    rw [← hs] at hB
    refine Out.sat_bind hB fun o ho => ?_
    obtain ⟨B, rfl, hB, _⟩ := ho
    refine fin (M := Matrix.of fun i (_ : Fin 1) => x i) hm one_pos ?_ rfl
    convert hB using 1
    simp only [rowsOf, List.map_ofFn]
    congr 1
  | @file m n M d0 d1 els ls tail st h1 h2 h3 h4 h5 hm =>
    have hle := rows_le H h4
    have hn0 : 0 < n := by
      have := (hle (List.ofFn (M ⟨0, hm⟩)) (by simp only [rowsOf, List.mem_ofFn]; exact ⟨_, rfl⟩)).2
      simpa using this
    rw [if_neg h1]
    unfold loadMat
    rw [h2]
    simp only [bind_assoc]
    refine Out.sat_bind (readMat_sat H hp h3 h4 (rowsOf_ne hm M) (fun xs hx => ?_) h5) fun o ho => ?_
    · have := (hle xs hx).1
      simp only [List.length_append]
      omega
    · obtain ⟨hB, rfl⟩ := ho.1 ⟨n, rowsOf_len⟩
      have hst : o.2.fail = false := by
        rcases h5 with ⟨_, _, h5⟩ | ⟨_, _, _, _, _, _, h5⟩ <;> rw [h5]
      simp only [ok_bind, hst, Bool.false_eq_true, if_false]
      exact fin hm hn0 hB rfl
  | @ragged_file xss d0 d1 els ls tail st h1 h2 h3 h4 h5 hno =>
    have hle := rows_le H h4
    rw [if_neg h1]
    unfold loadMat
    rw [h2]
    simp only [bind_assoc]
    refine Out.sat_bind (readMat_sat H hp h3 h4 (by rintro rfl; exact hno ⟨0, by simp⟩) (fun xs hx => ?_) h5) fun o ho => ?_
    · have := (hle xs hx).1
      simp only [List.length_append]
      omega
    · simp only [ok_bind, ho.2 hno, if_true]
      exact rfl
  | no_file h1 h2 =>
    rw [if_neg h1]
    unfold loadMat
    rw [h2]
    exact rfl

theorem matScan_out (H : EltSpec U E rep Text) (h0 : rep zero 0) {s : String} (hs : ∃ r, MLit Text files s r) :
    Out U (matScan E files zero s >>= fun a => ok (.mat a)) (MARep rep) (MLit Text files s) := by
  obtain ⟨r, hr⟩ := hs
  exact (matScan_lit H h0 hr).mono fun _ e => e ▸ hr

/-- A literal has one meaning. -/
theorem MLit.unique (H : EltSpec False E rep Text) (h0 : rep zero 0) (hf : ∀ {a x y}, rep a x → rep a y → x = y) {s : String} {r r' : Option (MVal F)}
    (hr : MLit Text files s r) (hr' : MLit Text files s r') : r = r' := by
  have h := matScan_lit H h0 hr
  have h' := matScan_lit H h0 hr'
  revert h h'
  generalize (matScan E files zero s >>= (fun a => ok (MAtom.mat a)) : Res (MAtom (TMat α) α)) = c
  intro h h'
  cases c with
  | ok a =>
    obtain ⟨v, hv, rfl⟩ := h
    obtain ⟨v', hv', rfl⟩ := h'
    congr 1
    cases a with
    | mat A =>
      cases v with
      | @mat m n M =>
        cases v' with
        | @mat m' n' M' =>
          obtain ⟨_, _, hA⟩ := hv
          obtain ⟨_, _, hA'⟩ := hv'
          obtain rfl : m = m' := hA.shape.nr.symm.trans hA'.shape.nr
          obtain rfl : n = n' := hA.shape.nc.symm.trans hA'.shape.nc
          congr 1
          ext i j
          obtain ⟨e, h1, h2⟩ := hA.ent i j
          obtain ⟨e', h1', h2'⟩ := hA'.ent i j
          obtain rfl : e = e' := Option.some.inj (h1.symm.trans h1')
          exact hf h2 h2'
        | _ => exact hv'.elim
      | _ => exact hv.elim
    | scalar a =>
      cases v with
      | scalar x =>
        cases v' with
        | scalar y => exact congrArg _ (hf hv hv')
        | _ => exact hv'.elim
      | _ => exact hv.elim
    | int a =>
      cases v with
      | int x =>
        cases v' with
        | int y => exact congrArg _ (hv.symm.trans hv')
        | _ => exact hv'.elim
      | _ => exact hv.elim
  | throw => exact h.symm.trans h'
  | ub => exact h.elim
  | timeout => exact h.elim

theorem showMAtom_ok (H : EltSpec U E rep Text) {a : MAtom (TMat α) α} {v : MVal F} (h : MARep rep a v) :
    ∃ w, showMAtom E a = ok w ∧ MShows Text w v := by
  cases a with
  | mat A =>
    cases v with
    | @mat m n M =>
      obtain ⟨hm, hn, hA⟩ := h
      obtain ⟨ts, h1, h2, _⟩ := showMat_ok H (list_rep hA) (by show 1 ≤ A.num_cols; rw [hA.shape.nc]; exact hn)
      refine ⟨lines ts, ?_, ts, rfl, h2⟩
      rw [← h1]
      show showMat E A = showMat E _
      unfold showMat
      simp only [List.take_take, min_self]
    | _ => exact h.elim
  | scalar a =>
    cases v with
    | scalar x =>
      obtain ⟨t, h1, h2⟩ := H.print h
      exact ⟨t ++ ['\n'], by show (E.print a >>= fun t => ok (t ++ ['\n'])) = _; rw [h1]; rfl, t, rfl, h2⟩
    | _ => exact h.elim
  | int n =>
    cases v with
    | int k => obtain rfl : n = k := h; exact ⟨_, rfl, rfl⟩
    | _ => exact h.elim

/-- What the matrix calculator prints, given what the evaluation does. -/
theorem matOp_gen (S : EltSpec U E rep Text) {ts : List String} {t : Tree} {D : Option (MVal F) → Prop} (h : Derives matG .Q t ts)
    (he : Out U (eval (matrix (matOps O zero one) (matScan E files zero) (fun s => Scan.readInt s.toList)) false t) (MARep rep) D) :
    Out U (matOp O E files zero one ts) (fun out v => ∃ w, out = [w] ∧ MShows Text w v) D := by
  unfold matOp
  rw [C90_matrix _ _ _ h, bind_assoc]
  refine he.bind (fun a v _ ha hv => ?_) id
  obtain ⟨w, hw, hs⟩ := showMAtom_ok S ha
  rw [ok_bind]
  simp only [each, hw, ok_bind]
  exact ⟨v, ⟨w, rfl, hs⟩, hv⟩

end text

section
variable {U : Prop} {α F : Type} [Field F] {O : TOps α} {rep : α → F → Prop} {zero one : α}
variable {E : EltIO α} {Text : List Char → F → Prop} {files : String → Option (List Char)}

/-- What the matrix calculator prints for an expression. -/
theorem matOp_out (H : EltRef U O rep) (S : EltSpec U E rep Text) (h0 : rep zero 0) (h1 : rep one 1) {ts : List String} {t : Tree}
    (N : Minus t → NegRef U O rep) (h : Derives matG .Q t ts) (hl : ∀ s, (false, s) ∈ t.lits false → ∃ r, MLit Text files s r)
    (hx : ∀ s n, (true, s) ∈ t.lits false → Scan.readInt s.toList = ok n → n = INT_MIN → U) :
    Out U (matOp O E files zero one ts) (fun out v => ∃ w, out = [w] ∧ MShows Text w v) (MDen (MLit Text files) false t) :=
  matOp_gen S h (mat_eval_out H h0 h1 t false N (fun s hs => matScan_out S h0 (hl s hs)) hx)

end
end Spffl.Expr
