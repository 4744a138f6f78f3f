/-
Property C123: in-place operators of vectors with an argument from the vector itself, componentwise products, `find_row`, and the
comparison of a matrix with a scalar (tvector.h, tmatrix.h).

The general theorems hold for any element type whose operations refine a commutative ring (`EltRef`, with the instances
`C42_inst_*`); the `_fp` versions are for intmod_t.
-/
import Verif.Proof.VecAlias
import Verif.Props.TMatrix

namespace Spffl.Props
open Res
namespace TM
variable {U : Prop} {α R : Type} [CommRing R] {O : TOps α} {rep : α → R → Prop} {m n : ℕ}

/-- C123: the result of `v *= v[k]`. -/
theorem C123_mult_own (H : EltRef U O rep) {v : TVec α} {x : Fin n → R} (hv : VRep rep v x) (k : Fin n) :
    (TVec.mult_by_own O v k).Sat U (fun r => VRep rep r (fun i => if i ≤ k then x i * x k else x i * x k ^ 2)) := mult_by_own_sat H hv k

/-- C123: the result of `v /= v[k]` if `v[k]` is a unit. -/
theorem C123_div_own (H : EltRef U O rep) {v : TVec α} {x : Fin n → R} (hv : VRep rep v x) (k : Fin n) {z : R} (hz : x k * z = 1) :
    (TVec.div_by_own O v k).Sat U (fun r => VRep rep r (fun i => if i ≤ k then x i * z else x i)) := div_by_own_sat H hv k hz

/-- C123: componentwise products in place, also of a vector with itself. -/
theorem C123_product (H : EltRef U O rep) {v w : TVec α} {x y : Fin n → R} (hv : VRep rep v x) (hw : VRep rep w y) :
    (TVec.cmul_assign O v w).Sat U (fun r => VRep rep r (x * y)) ∧
    (TVec.cmul_assign_self O v).Sat U (fun r => VRep rep r (x ^ 2)) :=
  ⟨cmul_assign_sat H hv hw, by rw [sq]; exact cmul_assign_self_sat H hv⟩

/-- C123: products of vectors of different lengths are refused. -/
theorem C123_product_len {v w : TVec α} (h : v.length ≠ w.length) : TVec.cmul_assign O v w = throw := by
  unfold TVec.cmul_assign TVec.check_equal_lengths
  rw [if_neg h]; rfl

/-- C123: `find_row` returns the first row that is `x`, and `false` only if there is none. -/
theorem C123_find_row (H : EltRef U O rep) {A : TMat α} {M : Matrix (Fin m) (Fin n) R} (hA : MRep rep A M) {v : TVec α} {x : Fin n → R}
    (hv : VRep rep v x) :
    (TMat.find_row O A v).Sat U (fun r =>
      (r = none ↔ ∀ i, M i ≠ x) ∧ ∀ k, r = some k ↔ ∃ h : k < m, M ⟨k, h⟩ = x ∧ ∀ i : Fin m, (i : ℕ) < k → M i ≠ x) := by
  refine (find_row_sat H hA hv).mono fun r hr => ?_
  cases r with
  | none =>
    have hr' : ∀ i : Fin m, M i ≠ x := fun i => hr i (Nat.zero_le _)
    exact ⟨⟨fun _ => hr', fun _ => rfl⟩, fun k => ⟨(fun h => nomatch h), fun ⟨h, h1, _⟩ => absurd h1 (hr' _)⟩⟩
  | some t =>
    obtain ⟨h1, h2, h3⟩ := hr
    refine ⟨⟨(fun h => nomatch h), fun h => absurd h2 (h _)⟩, fun k => ⟨fun h => ?_, fun ⟨g1, g2, g3⟩ => ?_⟩⟩
    · cases h
      exact ⟨h1, h2, fun i hi => h3 i (Nat.zero_le _) hi⟩
    · rcases lt_trichotomy t k with h | h | h
      · exact absurd h2 (g3 ⟨t, h1⟩ h)
      · rw [h]
      · exact absurd g2 (h3 ⟨k, g1⟩ (Nat.zero_le _) h)

/-- C123: a vector of another length is not found, and nothing is read beyond an end. -/
theorem C123_find_row_len {A : TMat α} (hA : Shape A m n) {v : TVec α} (hv : v.length ≠ n) : TMat.find_row O A v = ok none :=
  find_row_len hA hv

/-- C123: `A == c` for a scalar `c` says that all entries are `c`; it is not the comparison with `c` times the identity. -/
theorem C123_eq_scalar (H : EltRef U O rep) {A : TMat α} {M : Matrix (Fin m) (Fin n) R} (hA : MRep rep A M) {e : α} {c : R} (he : rep e c) :
    (TMat.eqScalar O A e).Sat U (fun r => r = true ↔ ∀ i j, M i j = c) := msEq_sat H hA he

/-! ### intmod_t -/

/-- C123 for intmod_t: `v *= v[k]` is the product with `v[k]` exactly if every later element `y` has `y v[k] = y v[k]²`. -/
theorem C123_mult_own_fp {p : ℕ} (h2 : 2 ≤ p) (hb : p ≤ 46341) {v : TVec IntMod} {x : Fin n → ZMod p} (hv : FpVec p v x) (k : Fin n) :
    (TVec.mult_by_own IntMod.cops.tops v k).Ok (fun r => ∃ y, FpVec p r y ∧
      (y = x k • x ↔ ∀ j, k < j → x j * x k = x j * x k ^ 2)) := by
  refine sat_false.1 ((C123_mult_own (C42_inst_intmod h2 hb).1 hv k).mono fun r hr => ⟨_, hr, fun h j hj => ?_, fun h => ?_⟩)
  · have := congrFun h j
    simp only [Pi.smul_apply, smul_eq_mul, if_neg (not_le.2 hj)] at this
    rw [this, mul_comm]
  · funext j
    simp only [Pi.smul_apply, smul_eq_mul]
    split
    · exact mul_comm _ _
    · rename_i hj
      rw [← h j (not_le.1 hj), mul_comm]

/-- C123 violated: modulo a prime, if `v[k]` is neither zero nor one and some later element is not zero, `v *= v[k]` is not the
product with `v[k]`. -/
theorem C123_violated_mult_own {p : ℕ} [hp : Fact p.Prime] (hb : p ≤ 46341) {v : TVec IntMod} {x : Fin n → ZMod p} (hv : FpVec p v x)
    (k : Fin n) (h0 : x k ≠ 0) (h1 : x k ≠ 1) {j : Fin n} (hj : k < j) (hx : x j ≠ 0) :
    (TVec.mult_by_own IntMod.cops.tops v k).Ok (fun r => ∃ y, FpVec p r y ∧ y ≠ x k • x) := by
  obtain ⟨r, hr, y, hy, h⟩ := C123_mult_own_fp hp.out.two_le hb hv k
  refine ⟨r, hr, y, hy, fun e => h1 ?_⟩
  have := h.1 e j hj
  rw [sq] at this
  have := mul_left_cancel₀ hx this
  exact (mul_left_cancel₀ h0 (by rw [mul_one]; exact this)).symm

/-- C123 violated: modulo a prime, `v /= v[k]` leaves the elements after `k` as they are, so it is not the quotient if `v[k]` is not one
and some later element is not zero. -/
theorem C123_violated_div_own {p : ℕ} [hp : Fact p.Prime] (hb : p ≤ 46341) {v : TVec IntMod} {x : Fin n → ZMod p} (hv : FpVec p v x)
    (k : Fin n) (h0 : x k ≠ 0) (h1 : x k ≠ 1) {j : Fin n} (hj : k < j) (hx : x j ≠ 0) :
    (TVec.div_by_own IntMod.cops.tops v k).Ok (fun r => ∃ y, FpVec p r y ∧ y k = 1 ∧ (∀ i, k < i → y i = x i) ∧ y ≠ (x k)⁻¹ • x) := by
  refine sat_false.1 ((C123_div_own (C42_inst_intmod hp.out.two_le hb).1 hv k (mul_inv_cancel₀ h0)).mono fun r hr =>
    ⟨_, hr, ?_, fun i hi => if_neg (not_le.2 hi), fun e => ?_⟩)
  · simp only [le_refl, if_true]; exact mul_inv_cancel₀ h0
  · have := congrFun e j
    simp only [Pi.smul_apply, smul_eq_mul, if_neg (not_le.2 hj)] at this
    apply h1
    have h3 : (x k)⁻¹ = 1 := mul_right_cancel₀ hx (by rw [one_mul]; exact this.symm)
    rw [← inv_inv (x k), h3, inv_one]

/-- C123 for intmod_t, the last element: here both are what they say. -/
theorem C123_own_last {p : ℕ} [hp : Fact p.Prime] (hb : p ≤ 46341) {v : TVec IntMod} {x : Fin (n + 1) → ZMod p} (hv : FpVec p v x) :
    (TVec.mult_by_own IntMod.cops.tops v n).Ok (fun r => FpVec p r (x (Fin.last n) • x)) ∧
    (x (Fin.last n) ≠ 0 → (TVec.div_by_own IntMod.cops.tops v n).Ok (fun r => FpVec p r ((x (Fin.last n))⁻¹ • x))) := by
  refine ⟨sat_false.1 ((C123_mult_own (C42_inst_intmod hp.out.two_le hb).1 hv (Fin.last n)).mono fun r hr => ?_),
    fun h0 => sat_false.1 ((C123_div_own (C42_inst_intmod hp.out.two_le hb).1 hv (Fin.last n) (mul_inv_cancel₀ h0)).mono fun r hr => ?_)⟩
  · simp only [Fin.le_last, if_true] at hr
    rwa [show x (Fin.last n) • x = fun i => x i * x (Fin.last n) from funext fun i => by simp [mul_comm]]
  · simp only [Fin.le_last, if_true] at hr
    rwa [show (x (Fin.last n))⁻¹ • x = fun i => x i * (x (Fin.last n))⁻¹ from funext fun i => by simp [mul_comm]]

/-- C123 for intmod_t: a row taken from the matrix is found, at an index whose row is equal to it. -/
theorem C123_find_own_row {p : ℕ} (h2 : 2 ≤ p) (hb : p ≤ 46341) {A : TMat IntMod} {M : Matrix (Fin m) (Fin n) (ZMod p)} (hA : FpMat p A M)
    {v : TVec IntMod} {i : Fin m} (hv : FpVec p v (M i)) :
    (TMat.find_row IntMod.cops.tops A v).Ok (fun r => ∃ k : Fin m, r = some (k : ℕ) ∧ k ≤ i ∧ M k = M i) := by
  refine sat_false.1 ((C123_find_row (C42_inst_intmod h2 hb).1 hA hv).mono fun r ⟨hn, hs⟩ => ?_)
  cases r with
  | none => exact absurd rfl (hn.1 rfl i)
  | some t =>
    obtain ⟨h, h1, h3⟩ := (hs t).1 rfl
    refine ⟨⟨t, h⟩, rfl, ?_, h1⟩
    by_contra hc
    exact h3 i (not_le.1 hc) rfl

/-! ### examples -/

private def v7 (l : List Int) : TVec IntMod := l.map fun a => ⟨a, 7⟩

/-- (2 3 1 5) modulo 7 times its second element: 6 2, then 1·9 = 2 and 5·9 = 3. -/
example : TVec.mult_by_own IntMod.cops.tops (v7 [2, 3, 1, 5]) 1 = ok (v7 [6, 2, 2, 3]) := by decide +kernel
/-- (2 3 1 5) modulo 7 divided by its second element: 2/3 = 3, 1, and the rest unchanged. -/
example : TVec.div_by_own IntMod.cops.tops (v7 [2, 3, 1, 5]) 1 = ok (v7 [3, 1, 1, 5]) := by decide +kernel
example : TVec.cmul_assign IntMod.cops.tops (v7 [2, 3, 1]) (v7 [4, 0, 6]) = ok (v7 [1, 0, 6]) := by decide +kernel
example : TVec.cmul_assign_self IntMod.cops.tops (v7 [2, 3, 6]) = ok (v7 [4, 2, 1]) := by decide +kernel
example : TMat.find_row IntMod.cops.tops ⟨3, 2, [v7 [1, 2], v7 [3, 4], v7 [3, 4]]⟩ (v7 [3, 4]) = ok (some 1) := by decide +kernel
example : TMat.find_row IntMod.cops.tops ⟨3, 2, [v7 [1, 2], v7 [3, 4], v7 [3, 4]]⟩ (v7 [3]) = ok none := by decide +kernel
/-- the identity is not equal to the scalar one -/
example : TMat.eqScalar IntMod.cops.tops ⟨2, 2, [v7 [1, 0], v7 [0, 1]]⟩ ⟨1, 7⟩ = ok false := by decide +kernel
example : TMat.eqScalar IntMod.cops.tops ⟨2, 2, [v7 [1, 1], v7 [1, 1]]⟩ ⟨1, 7⟩ = ok true := by decide +kernel

end TM
end Spffl.Props
