import Verif.Proof.ExprRing
import Verif.Proof.ExprInst2
import Verif.Model.CmdCalcRing

/-!
# The element types of the matrices over rings that are not fields
-/

namespace Spffl
open Res Polynomial Expr CPoly

/-! ### Integers -/

/-- An `int`. -/
def IRep (a x : ℤ) : Prop := a = x ∧ InInt a

theorem chk_true {n : ℤ} : (chk n).Sat True fun r => IRep r n := by
  unfold chk
  split
  · exact ⟨rfl, ‹_›⟩
  · trivial

theorem int_dom : DomRef True Cmd.intTops IRep where
  add := by rintro a b x y ⟨rfl, _⟩ ⟨rfl, _⟩; exact chk_true
  sub := by rintro a b x y ⟨rfl, _⟩ ⟨rfl, _⟩; exact chk_true
  mul := by rintro a b x y ⟨rfl, _⟩ ⟨rfl, _⟩; exact chk_true
  div := by
    rintro a b x y z ⟨rfl, _⟩ ⟨rfl, _⟩ h
    show (idiv a b).Sat _ _
    unfold idiv
    rcases Int.eq_one_or_neg_one_of_mul_eq_one' h with ⟨rfl, rfl⟩ | ⟨rfl, rfl⟩
    · simpa using chk_true (n := a)
    · simpa using chk_true (n := -a)
  eq := by
    rintro a b x y ⟨rfl, _⟩ ⟨rfl, _⟩
    show (a == b) = true ↔ _
    simp
  self := by
    rintro a b x ⟨rfl, _⟩ ⟨rfl, _⟩ h
    show (idiv b b).Sat _ _
    unfold idiv
    rw [if_neg h, Int.tdiv_self h]
    exact chk_true
  low := by
    rintro a b y ⟨rfl, _⟩ ⟨rfl, _⟩ h hu
    show (idiv 1 b).Sat _ _
    unfold idiv
    rw [if_neg h]
    have : (1 : ℤ).tdiv b = 0 := by
      rw [Int.isUnit_iff] at hu
      push Not at hu
      rw [Int.tdiv_eq_ediv_of_nonneg (by norm_num)]
      rcases lt_or_gt_of_ne h with hb | hb
      · rw [← neg_neg b, Int.ediv_neg, Int.ediv_eq_zero_of_lt (by norm_num) (by omega), neg_zero]
      · exact Int.ediv_eq_zero_of_lt (by norm_num) (by omega)
    rw [this]
    exact chk_true
  zero := by
    rintro a b x _ ⟨rfl, _⟩
    exact .inr ⟨trivial, rfl⟩

theorem int_neg : NegRef True Cmd.intTops IRep where
  neg := by rintro a x ⟨rfl, _⟩; exact chk_true

/-! ### Polynomials over a field -/

section poly
variable {U : Prop} {α K : Type} [Field K] {O : TOps α} {E : EOps α} {rep : α → K[X] → Prop} {ord : K[X] → K[X] → Prop}

theorem poly_dom (H : RRef U E rep (polySem K) ord) (e1 : O.add = E.add) (e2 : O.sub = E.sub) (e3 : O.mul = E.mul) (e4 : O.div = E.div)
    (e5 : O.eq = E.eq) : DomRef U O rep where
  add h h' := by rw [e1]; exact H.add h h'
  sub h h' := by rw [e2]; exact H.sub h h'
  mul h h' := by rw [e3]; exact H.mul h h'
  div {a b x y z} h h' hz := by
    rw [e4]
    have hy : y ≠ 0 := by rintro rfl; simp at hz
    have := H.div h h'
    simp only [polySem, hy, if_false] at this
    have e : x / y = x * z := by
      have : x = (x * z) * y := by rw [mul_assoc, mul_comm z, hz, mul_one]
      conv_lhs => rw [this]
      exact mul_div_cancel_right₀ _ hy
    rw [e] at this
    exact this
  eq h h' := by rw [e5]; exact H.eq h h'
  self {a b x} h h' hx := by
    rw [e4]
    have := H.div h h'
    simp only [polySem, hx, if_false] at this
    rw [EuclideanDomain.div_self hx] at this
    exact this
  low {a b y} h h' hy hu := by
    rw [e4]
    have := H.div h h'
    simp only [polySem, hy, if_false] at this
    have e : (1 : K[X]) / y = 0 := by
      rw [Polynomial.div_eq_zero_iff hy, degree_one]
      exact degree_pos_of_ne_zero_of_nonunit hy hu
    rw [e] at this
    exact this
  zero {a b x} h h' := by
    rw [e4]
    have := H.div h h'
    simp only [polySem, if_true] at this
    exact this

end poly

theorem f2_dom : DomRef True F2P.edops.toTOps F2P.WR := poly_dom f2_rref rfl rfl rfl rfl rfl
theorem f2_negRef : NegRef True F2P.edops.toTOps F2P.WR := ⟨f2_rref.neg⟩

section cpoly
variable {U : Prop} {α K : Type} [Field K] {O : CoefOps α} {rep : α → K → Prop} {ord : K → K → Prop} {d : α}

theorem cpoly_dom (H : CoefRef U O rep ord) : DomRef U (CPoly.edops O d).toTOps (PRep rep) := by
  refine poly_dom (E := { cpolyOps O with neg := fun a => do let z ← CPoly.sub O a a; CPoly.sub O z a })
    (cpoly_rref H fun {a f} ha => ?_) rfl rfl rfl rfl rfl
  refine (CPoly.sub_sat H ha ha).bind fun z hz => ?_
  simpa using CPoly.sub_sat H hz ha

theorem cpoly_negRef (H : CoefRef True O rep ord) : NegRef True (CPoly.edops O d).toTOps (PRep rep) := ⟨neg_true H⟩

theorem cmod_elt {M : K[X]} (H : CoefRef U O rep ord) : EltRef U (Cmd.cmodTops O d) (CMod.Rep rep M) :=
  ⟨CMod.add_sat H, CMod.sub_sat H, CMod.mul_sat H, CMod.div_sat H, CMod.eq_sat H⟩

end cpoly
end Spffl
