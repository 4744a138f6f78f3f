import Verif.Proof.ExprMatDet
import Verif.Props.ExprMat

/-!
# C98: the value of a matrix expression is determined

`C98_matrix` says that the answer is a value that the expression may have.  Only `kerbas`, `rr` and `rrnz` leave a choice: without
them there is one value, and the answer is that one.
-/

namespace Spffl.Props
namespace Expr98
open Res F2P CPoly Polynomial Matrix Spffl.Expr Spffl.VText Spffl.Scan PText93 VText94 Expr90 Expr96

/-- C98: a reduced row echelon form is determined by the space that its rows span, also if the numbers of rows differ: the rank and
all the rows that both have. -/
theorem C98_reduced_unique {F : Type} [Field F] {m m' n r r' : ℕ} {B : Matrix (Fin m) (Fin n) F} {B' : Matrix (Fin m') (Fin n) F}
    {p : Fin r → Fin n} {p' : Fin r' → Fin n} (h : IsReduced B r p) (h' : IsReduced B' r' p')
    (hs : Submodule.span F (Set.range B'.row) = Submodule.span F (Set.range B.row)) :
    r = r' ∧ ∀ i (hi : i < m) (hi' : i < m'), B ⟨i, hi⟩ = B' ⟨i, hi'⟩ := h.unique h' hs

section General
variable {F : Type} [Field F] {α : Type} {U : Prop} {E : EltIO α} {rep : α → F → Prop} {Text : List Char → F → Prop} {zero : α}

/-- C98: an expression without `kerbas`, `rr` and `rrnz` has at most one value. -/
theorem C98_value_unique (S : EltSpec False E rep Text) (h0 : rep zero 0) (hf : ∀ {a x y}, rep a x → rep a y → x = y)
    {files : String → Option (List Char)} {t : Tree} (ht : Fixed t) {r r' : Option (MVal F)}
    (h : MDen (MLit Text files) false t r) (h' : MDen (MLit Text files) false t r') : r = r' :=
  MDen.unique (Lit := MLit Text files) (fun h h' => MLit.unique S h0 hf h h') ht h h'

/-- The answer is the value `r`, and there is no other. -/
def MRight (U : Prop) (Text : List Char → F → Prop) (c : Res (List (List Char))) (S : Option (MVal F) → Prop) : Prop :=
  ∃ r, (∀ r', S r' ↔ r' = r) ∧ MAnswers U Text c (· = r)

theorem m_right {S : Option (MVal F) → Prop} (hu : ∀ {r r'}, S r → S r' → r = r') {c : Res (List (List Char))} (h : MAnswers False Text c S) :
    MRight False Text c S := by
  rcases h with ⟨w, v, h1, h2, h3⟩ | ⟨h1, h2⟩ | ⟨h, _⟩
  · exact ⟨some v, fun r' => ⟨fun h => hu h h2, fun h => h ▸ h2⟩, .inl ⟨w, v, h1, rfl, h3⟩⟩
  · exact ⟨none, fun r' => ⟨fun h => hu h h2, fun h => h ▸ h2⟩, .inr (.inl ⟨h1, rfl⟩)⟩
  · exact h.elim

end General

/-- C98: `fp_mat_op` gives the value. -/
theorem C98_fp_value {p : ℕ} [hp : Fact p.Prime] (hb : p ≤ 46341) {files : String → Option (List Char)} {ts : List String} {t : Tree}
    (h : Derives matG .Q t ts) (hl : MLiterals (ModWord p) files t) (hi : Exponents t) (ht : Fixed t) :
    MRight False (ModWord p) (fpMatOp p files ts) (MDen (MLit (ModWord p) files) false t) := by
  obtain ⟨_, _, r0, _⟩ := fp_zero_one hp.out.two_le hb
  exact m_right (C98_value_unique (C94_mod hp.out.pos (by omega)) r0 (fun h h' => h.2.2.2.symm.trans h'.2.2.2) ht) (C98_fp_matrix hb h hl hi)

/-- C98: `f2_mat_op` gives the value. -/
theorem C98_f2_value (r0 : ℕ) {files : String → Option (List Char)} {ts : List String} {t : Tree} (h : Derives matG .Q t ts)
    (hl : MLiterals BitWord files t) (hi : Exponents t) (ht : Fixed t) :
    MRight False BitWord (f2MatOp r0 files ts) (MDen (MLit BitWord files) false t) := by
  have r0' := BitT.rep_ofInt 0
  simp only [Int.cast_zero] at r0'
  refine m_right (C98_value_unique (C98_bit r0) r0' (fun {a x y} h h' => ?_) ht) (C98_f2_matrix r0 h hl hi)
  have := h.symm.trans h'
  clear h h'
  revert x y
  decide

/-- C98: `f2_pm_mat_op` gives the value. -/
theorem C98_f2n_value {m : (ZMod 2)[X]} [hm : Fact (Irreducible m)] {mm : F2P} (hc : Canon mm) (hmm : toPoly mm = m)
    {files : String → Option (List Char)} {ts : List String} {t : Tree} (h : Derives matG .Q t ts) (hl : MLiterals (HexRep m) files t)
    (hi : Exponents t) (ht : Fixed t) : MRight False (HexRep m) (f2PmMatOp mm files ts) (MDen (MLit (HexRep m) files) false t) := by
  obtain ⟨z, _, _, _, rz, _⟩ := f2pm_zero_one hc hmm
  exact m_right (C98_value_unique (C94_f2mod hm.out.natDegree_pos) rz (fun h h' => h.val.symm.trans h'.val) ht) (C98_f2n_matrix hc hmm h hl hi)

theorem prep_fun {α R : Type} [CommRing R] {rep : α → R → Prop} (hf : ∀ {a x y}, rep a x → rep a y → x = y) {a : CPoly α} {f g : R[X]}
    (h : PRep rep a f) (h' : PRep rep a g) : f = g := by
  ext i
  by_cases hi : i < a.degree + 1
  · obtain ⟨e, h1, h2⟩ := h.co i hi
    obtain ⟨e', h1', h2'⟩ := h'.co i hi
    cases h1.symm.trans h1'
    exact hf h2 h2'
  · rw [coeff_eq_zero_of_natDegree_lt (by have := h.deg; omega), coeff_eq_zero_of_natDegree_lt (by have := h'.deg; omega)]

/-- C98: `fp_pm_mat_op` gives the value, where there is no unary minus. -/
theorem C98_fpn_value_partial {p : ℕ} [hp : Fact p.Prime] {M : (ZMod p)[X]} [hM : Fact (Irreducible M)] (hb : p ≤ 46341) {mm : CPoly IntMod}
    (hmm : PRep (IntMod.Rep p) mm M) {files : String → Option (List Char)} {ts : List String} {t : Tree} (h : Derives matG .Q t ts)
    (hl : MLiterals (FpRep M) files t) (hi : Exponents t) (hN : ¬ Minus t) (ht : Fixed t) :
    MRight False (FpRep M) (fpPmMatOp mm files ts) (MDen (MLit (FpRep M) files) false t) := by
  obtain ⟨z, _, _, _, rz, _⟩ := fppm_psub hb hmm
  refine m_right (C98_value_unique (C94_fpmod hb) rz (fun h h' => ?_) ht) ((C98_fpn_matrix_partial hb hmm h hl).1 hN hi)
  obtain ⟨f, h1, _, rfl⟩ := h.hr
  obtain ⟨g, h1', _, rfl⟩ := h'.hr
  rw [prep_fun (fun h h' => h.2.2.2.symm.trans h'.2.2.2) h1 h1']

/-- C98: `q_mat_op` gives the value, if there is one and unless the arithmetic overflows. -/
theorem C98_q_value_partial {files : String → Option (List Char)} {ts : List String} {t : Tree} (h : Derives matG .Q t ts)
    (hl : MLiterals RatWord files t) (ht : Fixed t) {r : Option (MVal ℚ)} (hr : MDen (MLit RatWord files) false t r) :
    MAnswers True RatWord (qMatOp files ts) (· = r) ∧ ∀ r', MDen (MLit RatWord files) false t r' → r' = r := by
  have hu : ∀ r', MDen (MLit RatWord files) false t r' → r' = r :=
    fun r' h' => C98_value_unique C94_rat rat_zero (fun h h' => h.val.symm.trans h'.val) ht h' hr
  refine ⟨?_, hu⟩
  rcases C98_q_matrix_partial h hl with ⟨w, v, h1, h2, h3⟩ | ⟨h1, h2⟩ | h
  · exact .inl ⟨w, v, h1, hu _ h2, h3⟩
  · exact .inr (.inl ⟨h1, hu _ h2⟩)
  · exact .inr (.inr h)

/-- The choice is real: a matrix has several echelon forms and its kernel several bases. -/
example : MUn .rr (.mat !![(1 : ℚ), 2; 0, 1]) (some (.mat !![(1 : ℚ), 2; 0, 1])) ∧
    MUn .rr (.mat !![(1 : ℚ), 2; 0, 1]) (some (.mat !![(1 : ℚ), 0; 0, 1])) := by
  have E : ∀ a : ℚ, IsEchelon !![(1 : ℚ), a; 0, 1] 2 (id : Fin 2 → Fin 2) := fun a =>
    { le := le_refl _
      mono := strictMono_id
      zero := fun i hi => absurd i.2 (by omega)
      one := fun i => by fin_cases i <;> rfl
      left := fun i j h => by fin_cases i <;> fin_cases j <;> simp_all }
  refine ⟨.rr (E 2) ⟨1, isUnit_one, by simp⟩, .rr (E 0) ⟨!![1, -2; 0, 1], ?_, ?_⟩⟩
  · rw [Matrix.isUnit_iff_isUnit_det]; simp
  · ext i j; fin_cases i <;> fin_cases j <;> norm_num

end Expr98
end Spffl.Props
