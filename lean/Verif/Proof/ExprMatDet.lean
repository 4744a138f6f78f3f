import Verif.Base.EchelonUnique
import Verif.Proof.ExprMat

/-! Matrix expressions have one value, except where a basis of the kernel or an echelon form that is not reduced is asked for. -/

namespace Spffl.Expr
open Res Matrix

variable {F : Type} [Field F]

/-- Two meanings of the prefix operators agree. -/
theorem MUn.same {o : Op} {v : MVal F} {r r' : Option (MVal F)} (h : MUn o v r) (h' : MUn o v r') :
    (r = none ↔ r' = none) ∧ (o ∉ [Op.kerbas, .rr, .rrnz] → r = r') := by
  have K : ∀ {m n d} {M : Matrix (Fin m) (Fin n) F} {K : Matrix (Fin d) (Fin n) F}, 0 < d → LinearIndependent F (fun i => K i) →
      Submodule.span F (Set.range fun i => K i) = LinearMap.ker M.mulVecLin → (∀ x, M.mulVec x = 0 → x = 0) → False := by
    intro m n d M K hd hl hs hk
    refine hl.ne_zero ⟨0, hd⟩ (hk _ ?_)
    have : K ⟨0, hd⟩ ∈ LinearMap.ker M.mulVecLin := hs ▸ Submodule.subset_span ⟨_, rfl⟩
    simpa using this
  have E : ∀ {m n r} {M : Matrix (Fin m) (Fin n) F} {R : Matrix (Fin r) (Fin n) F} {p : Fin r → Fin n}, 0 < r → IsEchelon R r p →
      Submodule.span F (Set.range R.row) = Submodule.span F (Set.range M.row) → M = 0 → False := by
    intro m n r M R p hr he hs hM
    refine he.row_ne_zero (i := ⟨0, hr⟩) hr ?_
    have : R.row ⟨0, hr⟩ ∈ Submodule.span F (Set.range M.row) := hs ▸ Submodule.subset_span ⟨_, rfl⟩
    rw [show Submodule.span F (Set.range M.row) = ⊥ from by
      rw [Submodule.span_eq_bot]; rintro _ ⟨i, rfl⟩; subst hM; rfl] at this
    exact (Submodule.mem_bot F).mp this
  have I : ∀ {m n} {M : Matrix (Fin m) (Fin n) F} {N N' : Matrix (Fin n) (Fin m) F}, M * N = 1 → N' * M = 1 → N = N' := by
    intro m n M N N' h1 h2
    calc N = (N' * M) * N := by rw [h2, Matrix.one_mul]
      _ = N' * (M * N) := Matrix.mul_assoc ..
      _ = N' := by rw [h1, Matrix.mul_one]
  cases h with
  | neg M =>
    cases h' with
    | neg => exact ⟨Iff.rfl, fun _ => rfl⟩
    | other _ h => exact absurd rfl h
  | transpose M =>
    cases h' with
    | transpose => exact ⟨Iff.rfl, fun _ => rfl⟩
    | other _ _ h => cases h
  | det M =>
    cases h' with
    | det => exact ⟨Iff.rfl, fun _ => rfl⟩
    | det_err h => exact absurd rfl h
    | other _ _ h => cases h
  | det_err h =>
    cases h' with
    | det => exact absurd rfl h
    | det_err h => exact ⟨Iff.rfl, fun _ => rfl⟩
    | other _ _ h => cases h
  | rank M =>
    cases h' with
    | rank => exact ⟨Iff.rfl, fun _ => rfl⟩
    | other _ _ h => cases h
  | inv h1 h2 =>
    cases h' with
    | inv h1' h2' => exact ⟨by simp, fun _ => by rw [I h1 h2']⟩
    | inv_err h => exact absurd ⟨h1, h2⟩ (h _)
    | other _ _ h => cases h
  | inv_err h =>
    cases h' with
    | inv h1 h2 => exact absurd ⟨h1, h2⟩ (h _)
    | inv_err h => exact ⟨Iff.rfl, fun _ => rfl⟩
    | other _ _ h => cases h
  | kerbas h1 h2 h3 =>
    cases h' with
    | kerbas h1' h2' h3' => exact ⟨by simp, fun h => absurd (by decide) h⟩
    | kerbas_err h => exact (K h1 h2 h3 h).elim
    | other _ _ h => cases h
  | kerbas_err h =>
    cases h' with
    | kerbas h1 h2 h3 => exact (K h1 h2 h3 h).elim
    | kerbas_err h => exact ⟨Iff.rfl, fun _ => rfl⟩
    | other _ _ h => cases h
  | rr h1 h2 =>
    cases h' with
    | rr h1' h2' => exact ⟨by simp, fun h => absurd (by decide) h⟩
    | other _ _ h => cases h
  | rech h1 h2 =>
    cases h' with
    | rech h1' h2' =>
      refine ⟨by simp, fun _ => ?_⟩
      have := (h1.unique h1' (h2'.rowSpace.trans h2.rowSpace.symm)).2
      congr 2
      funext i
      exact this i i.2 i.2
    | other _ _ h => cases h
  | @rechr _ _ _ M R _ h1 h2 =>
    cases h' with
    | @rechr _ _ _ _ R' _ h1' h2' =>
      refine ⟨by simp, fun _ => ?_⟩
      obtain ⟨P, hP, e⟩ := h2
      obtain ⟨P', hP', e'⟩ := h2'
      have he : ∀ {R : Matrix _ _ F} {P}, IsUnit P → R = P * M → RowEquiv (M.submatrix Fin.rev Fin.rev) (R.submatrix Fin.rev Fin.rev) := by
        rintro R P hP rfl
        refine ⟨P.submatrix Fin.rev Fin.rev, ?_, ?_⟩
        · exact (Matrix.isUnit_submatrix_equiv Fin.revPerm Fin.revPerm).mpr hP
        · exact (Matrix.submatrix_mul_equiv P M Fin.rev Fin.revPerm Fin.rev).symm
      have := (h1.unique h1' ((he hP' e').rowSpace.trans (he hP e).rowSpace.symm)).2
      congr 2
      funext i
      funext j
      have h := congrFun (this i.rev i.rev.2 i.rev.2) j.rev
      simp only [Matrix.submatrix_apply, Fin.eta, Fin.rev_rev] at h
      exact h
    | other _ _ h => cases h
  | rrnz h1 h2 h3 =>
    cases h' with
    | rrnz h1' h2' h3' => exact ⟨by simp, fun h => absurd (by decide) h⟩
    | rrnz_err h => exact (E h1 h2 h3 h).elim
    | other _ _ h => cases h
  | rrnz_err h =>
    cases h' with
    | rrnz h1 h2 h3 => exact (E h1 h2 h3 h).elim
    | rrnz_err h => exact ⟨Iff.rfl, fun _ => rfl⟩
    | other _ _ h => cases h
  | rechnz h1 h2 h3 =>
    cases h' with
    | rechnz h1' h2' h3' =>
      refine ⟨by simp, fun _ => ?_⟩
      obtain ⟨rfl, h⟩ := h2.unique h2' (h3'.trans h3.symm)
      congr 2
      funext i
      exact h i i.2 i.2
    | rechnz_err h => exact (E h1 h2.toIsEchelon h3 h).elim
    | other _ _ h => cases h
  | rechnz_err h =>
    cases h' with
    | rechnz h1 h2 h3 => exact (E h1 h2.toIsEchelon h3 h).elim
    | rechnz_err h => exact ⟨Iff.rfl, fun _ => rfl⟩
    | other _ _ h => cases h
  | scalar => cases h' <;> exact ⟨Iff.rfl, fun _ => rfl⟩
  | int => cases h' <;> exact ⟨Iff.rfl, fun _ => rfl⟩
  | other v h1 h2 => cases h' <;> first | exact ⟨Iff.rfl, fun _ => rfl⟩ | exact absurd rfl h1 | cases h2

/-- Two meanings of the infix operators are equal. -/
theorem MBin.unique {o : Op} {v w : MVal F} {r r' : Option (MVal F)} (h : MBin o v w r) (h' : MBin o v w r') : r = r' := by
  have I : ∀ {n} {M N N' : Matrix (Fin n) (Fin n) F}, M * N = 1 → M * N' = 1 → N = N' := by
    intro n M N N' h1 h2
    rw [mul_eq_one_comm] at h1
    calc N = N * (M * N') := by rw [h2, Matrix.mul_one]
      _ = (N * M) * N' := (Matrix.mul_assoc ..).symm
      _ = N' := by rw [h1, Matrix.one_mul]
  cases h with
  | pow_inv hk hm =>
    cases h' with
    | pow hk' => omega
    | pow_inv _ hm' => rw [I hm hm']
    | pow_sing _ hn => exact absurd hm (hn _)
    | pow_err hn => exact absurd rfl hn
    | exp_err he => cases he
    | mat_err he _ => exact absurd rfl he
    | other _ _ he => exact absurd (by decide) he
  | _ =>
    cases h' <;> first
      | rfl
      | contradiction
      | (exfalso; simp_all ; done)
      | (exfalso; omega)

/-- No operator of the tree leaves a choice. -/
def Fixed : Tree → Prop
  | .lit _ => True
  | .un o t => o ∉ [Op.kerbas, .rr, .rrnz] ∧ Fixed t
  | .bin _ t u => Fixed t ∧ Fixed u

/-- An expression none of whose operators leaves a choice has one value. -/
theorem MDen.unique {Lit : String → Option (MVal F) → Prop} (hL : ∀ {s r r'}, Lit s r → Lit s r' → r = r') :
    ∀ {t : Tree} {b : Bool} {r r' : Option (MVal F)}, Fixed t → MDen Lit b t r → MDen Lit b t r' → r = r'
  | .lit s, b, r, r', _, h, h' => by
    cases h with
    | lit h => cases h' with | lit h' => exact hL h h'
    | int => cases h'; rfl
  | .un o t, b, r, r', hf, h, h' => by
    cases h with
    | un h1 h2 =>
      cases h' with
      | un h1' h2' =>
        cases Option.some.inj (MDen.unique (Lit := Lit) hL hf.2 h1 h1')
        exact (h2.same h2').2 hf.1
      | un_err h1' => cases MDen.unique (Lit := Lit) hL hf.2 h1 h1'
    | un_err h1 =>
      cases h' with
      | un h1' h2' => cases MDen.unique (Lit := Lit) hL hf.2 h1 h1'
      | un_err h1' => rfl
  | .bin o t u, b, r, r', hf, h, h' => by
    cases h with
    | bin h1 h2 h3 =>
      cases h' with
      | bin h1' h2' h3' =>
        cases Option.some.inj (MDen.unique (Lit := Lit) hL hf.1 h1 h1')
        cases Option.some.inj (MDen.unique (Lit := Lit) hL hf.2 h2 h2')
        exact h3.unique h3'
      | left_err h1' => cases MDen.unique (Lit := Lit) hL hf.1 h1 h1'
      | right_err h1' => cases MDen.unique (Lit := Lit) hL hf.2 h2 h1'
    | left_err h1 =>
      cases h' with
      | bin h1' h2' h3' => cases MDen.unique (Lit := Lit) hL hf.1 h1 h1'
      | left_err h1' => rfl
      | right_err h1' => rfl
    | right_err h1 =>
      cases h' with
      | bin h1' h2' h3' => cases MDen.unique (Lit := Lit) hL hf.2 h1 h2'
      | left_err h1' => rfl
      | right_err h1' => rfl

end Spffl.Expr
