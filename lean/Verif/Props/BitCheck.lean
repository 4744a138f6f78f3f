/-
Property C124: the self-checks of matrices, and equality and difference of bit matrices
(bit_matrix_t.cpp, tmatrix.h).

`Gate U r C` says that `r` returns if `C` holds and throws if not, with undefined behaviour only if `U`
(`gate_false` spells it out for `U = False`).  `tm` is the mask expression of `trim` as in C50-C52.
-/
import Verif.Proof.BitCheck
import Verif.Props.TMatrix
import Verif.Props.BitMatrix

namespace Spffl.Props
open Res
namespace Check

section field
variable {U : Prop} {α F : Type} [Field F] {O : TOps α} {rep : α → F → Prop} {m n d : ℕ}

/-- C124: the checks of tmatrix accept exactly the inverses and exactly the matrices with all rows in the kernel; `check_inverse` is right
also for factors that are not square. -/
theorem C124_tmatrix (H : EltRef U O rep) {A B K : TMat α} {M : Matrix (Fin m) (Fin n) F} {N : Matrix (Fin n) (Fin m) F}
    {L : Matrix (Fin d) (Fin n) F} (hm : 0 < m) (hn : 0 < n) (hA : MRep rep A M) (hB : MRep rep B N) (hK : MRep rep K L) :
    Gate U (TMat.check_inverse O A B) (M * N = 1 ∧ N * M = 1) ∧
    Gate U (TMat.check_kernel_basis O A K) (∀ i, M.mulVec (L i) = 0) :=
  ⟨check_inverse_gate H hm hn hA hB, check_kernel_basis_gate H hm hn hA hK⟩

end field

variable {m n d : ℕ}

/-- C124 for intmod_t modulo a prime. -/
theorem C124_fp {p : ℕ} [hp : Fact p.Prime] (hb : p ≤ 46341) {A B K : TMat IntMod} {M N : Matrix (Fin n) (Fin n) (ZMod p)}
    {L : Matrix (Fin d) (Fin n) (ZMod p)} (hn : 0 < n) (hA : TM.FpMat p A M) (hB : TM.FpMat p B N) (hK : TM.FpMat p K L) :
    (TMat.check_inverse IntMod.cops.tops A B = ok () ↔ N = M⁻¹ ∧ IsUnit M.det) ∧
    (TMat.check_inverse IntMod.cops.tops A B = throw ↔ ¬ (N = M⁻¹ ∧ IsUnit M.det)) ∧
    (TMat.check_kernel_basis IntMod.cops.tops A K = ok () ↔ Submodule.span (ZMod p) (Set.range L.row) ≤ LinearMap.ker M.mulVecLin) ∧
    (TMat.check_kernel_basis IntMod.cops.tops A K = throw ↔ ¬ Submodule.span (ZMod p) (Set.range L.row) ≤ LinearMap.ker M.mulVecLin) := by
  obtain ⟨h1, h2⟩ := C124_tmatrix (TM.C42_inst_intmod hp.out.two_le hb).1 hn hn hA hB hK
  have e1 : (M * N = 1 ∧ N * M = 1) ↔ N = M⁻¹ ∧ IsUnit M.det :=
    ⟨fun h => ⟨(Matrix.inv_eq_right_inv h.1).symm, Matrix.isUnit_det_of_right_inverse h.1⟩,
      fun ⟨h, u⟩ => by rw [h]; exact ⟨Matrix.mul_nonsing_inv _ u, Matrix.nonsing_inv_mul _ u⟩⟩
  have e2 : (∀ i, M.mulVec (L i) = 0) ↔ Submodule.span (ZMod p) (Set.range L.row) ≤ LinearMap.ker M.mulVecLin := by
    rw [Submodule.span_le]
    constructor
    · rintro h _ ⟨i, rfl⟩; exact h i
    · intro h i; exact h ⟨i, rfl⟩
  obtain ⟨a1, a2⟩ := gate_iff (h1.iff e1)
  obtain ⟨a3, a4⟩ := gate_iff (h2.iff e2)
  exact ⟨a1, a2, a3, a4⟩

/-- C124: `check_inverse` of bit matrices, whatever the mask of `trim` is. -/
theorem C124_bit_inverse {U : Prop} {tm : TrimMask} (H : ∀ k, (tm k).Sat U fun _ => True) {A B : BM} {M : Matrix (Fin m) (Fin n) (ZMod 2)}
    {N : Matrix (Fin n) (Fin m) (ZMod 2)} (hm : 0 < m) (hn : 0 < n) (hA : BM.Rep A M) (hB : BM.Rep B N) :
    Gate U (BM.check_inverse tm A B) (M * N = 1 ∧ N * M = 1) := BM.check_inverse_gate H hm hn hA hB

/-- C124: what `check_kernel_basis` of bit matrices computes: the entries of the product in the last word are not looked at. -/
theorem C124_bit_kernel_computes {U : Prop} {tm : TrimMask} (H : ∀ k, (tm k).Sat U fun _ => True) {A K : BM}
    {M : Matrix (Fin m) (Fin n) (ZMod 2)} {L : Matrix (Fin d) (Fin n) (ZMod 2)} (hm : 0 < m) (hA : BM.Rep A M) (hK : BM.Rep K L) :
    Gate U (BM.check_kernel_basis tm A K) (∀ i, ∀ a : Fin m, (a : ℕ) < (m - 1) / 64 * 64 → M.mulVec (L i) a = 0) :=
  BM.check_kernel_basis_gate H hm hA hK

/-- C124, the part that holds: a matrix with all rows in the kernel passes the check. -/
theorem C124_bit_kernel_partial {U : Prop} {tm : TrimMask} (H : ∀ k, (tm k).Sat U fun _ => True) {A K : BM}
    {M : Matrix (Fin m) (Fin n) (ZMod 2)} {L : Matrix (Fin d) (Fin n) (ZMod 2)} (hm : 0 < m) (hA : BM.Rep A M) (hK : BM.Rep K L)
    (h : ∀ i, M.mulVec (L i) = 0) : (BM.check_kernel_basis tm A K).Sat U fun _ => True :=
  (C124_bit_kernel_computes H hm hA hK).1 fun i a _ => congrFun (h i) a

/-- C124 violated: for a matrix with up to 64 rows, `check_kernel_basis` accepts everything. -/
theorem C124_violated_kernel (f : ℕ → BitVec 64) {A K : BM} {M : Matrix (Fin m) (Fin n) (ZMod 2)} {L : Matrix (Fin d) (Fin n) (ZMod 2)}
    (hm : 0 < m) (h64 : m ≤ 64) (hA : BM.Rep A M) (hK : BM.Rep K L) : BM.check_kernel_basis (fun k => ok (f k)) A K = ok () := by
  obtain ⟨_, h, _⟩ := sat_false.1 ((C124_bit_kernel_computes (BM.C50_some_mask f) hm hA hK).1 fun i a ha => by omega)
  exact h

/-- C124: what `==` of bit matrices of one size computes: the columns in the last word are not looked at. -/
theorem C124_bit_eq_computes {A B : BM} {M N : Matrix (Fin m) (Fin n) (ZMod 2)} (hA : BM.Rep A M) (hB : BM.Rep B N) :
    ∃ r, BM.eq A B = ok r ∧ (r = true ↔ ∀ i, ∀ j : Fin n, (j : ℕ) < (n - 1) / 64 * 64 → M i j = N i j) := by
  unfold BM.eq BM.check_dims
  rw [hA.nr, hA.nc, hB.nr, hB.nc, if_neg (by simp), ok_bind]
  obtain ⟨r, h1, h2⟩ := BM.eqLoop_rep hA hB m 0 (by omega)
  refine ⟨r, h1, h2.trans ⟨fun h i j hj => h i (Nat.zero_le _) j ?_, fun h i _ j hj => h i j ?_⟩⟩
  · rw [show 64 * (BV.nwords n - 1) = (n - 1) / 64 * 64 by unfold BV.nwords; omega]; exact hj
  · rwa [show 64 * (BV.nwords n - 1) = (n - 1) / 64 * 64 by unfold BV.nwords; omega] at hj

/-- C124 violated: bit matrices of one size with up to 64 columns are all equal to each other, and to the scalar zero. -/
theorem C124_violated_eq {A B : BM} {M N : Matrix (Fin m) (Fin n) (ZMod 2)} (h64 : n ≤ 64) (hA : BM.Rep A M) (hB : BM.Rep B N) :
    BM.eq A B = ok true ∧ BM.eqScalar A false = ok true := by
  obtain ⟨r, h1, h2⟩ := C124_bit_eq_computes hA hB
  obtain ⟨s, h3, h4⟩ := BM.eqScalarLoop_rep hA m 0 (by omega)
  refine ⟨by rw [h1, h2.2 fun i j hj => by omega], ?_⟩
  unfold BM.eqScalar
  rw [hA.nr, h3, h4.2 fun i _ j hj => by omega]

/-- C124: comparisons and differences of matrices of different sizes are refused. -/
theorem C124_bit_sizes {A B : BM} (h : A.num_rows ≠ B.num_rows ∨ A.num_cols ≠ B.num_cols) : BM.eq A B = throw ∧ BM.sub A B = throw := by
  unfold BM.eq BM.sub BM.check_dims
  rw [if_pos h, if_pos h]; exact ⟨rfl, rfl⟩

/-- C124: differences and negatives of bit matrices; `A - B` is `A + B`. -/
theorem C124_bit_sub {A B : BM} {M N : Matrix (Fin m) (Fin n) (ZMod 2)} (hm : 0 < m) (hn : 0 < n) (hA : BM.Rep A M) (hB : BM.Rep B N) :
    (∃ C, BM.sub A B = ok C ∧ BM.Rep C (M - N) ∧ BM.Rep C (M + N)) ∧ (∃ C, BM.neg A = ok C ∧ BM.Rep C (-M)) := by
  have e : ∀ x : ZMod 2, -x = x := by decide
  have eN : ∀ P : Matrix (Fin m) (Fin n) (ZMod 2), -P = P := fun P => by ext i j; exact e _
  obtain ⟨C, h1, h2⟩ := BM.sub_rep hm hn hA hB
  refine ⟨⟨C, h1, h2, ?_⟩, ?_⟩
  · rwa [sub_eq_add_neg, eN] at h2
  · rw [eN]; exact BM.copy_rep hA

/-! ### examples -/

private def v7 (l : List Int) : TVec IntMod := l.map fun a => ⟨a, 7⟩
private def bv (w : BitVec 64) (n : Nat) : BV := ⟨false, [w], 1, n⟩

example : TMat.check_inverse IntMod.cops.tops ⟨2, 2, [v7 [1, 2], v7 [3, 0]]⟩ ⟨2, 2, [v7 [0, 5], v7 [4, 1]]⟩ = ok () := by decide +kernel
example : TMat.check_inverse IntMod.cops.tops ⟨2, 2, [v7 [1, 2], v7 [3, 0]]⟩ ⟨2, 2, [v7 [0, 5], v7 [4, 2]]⟩ = throw := by decide +kernel
example : TMat.check_kernel_basis IntMod.cops.tops ⟨1, 2, [v7 [1, 2]]⟩ ⟨1, 2, [v7 [5, 1]]⟩ = ok () := by decide +kernel
example : TMat.check_kernel_basis IntMod.cops.tops ⟨1, 2, [v7 [1, 2]]⟩ ⟨2, 2, [v7 [5, 1], v7 [5, 2]]⟩ = throw := by decide +kernel
/-- the matrix (1 0) and the vector (1 0), which is not in its kernel -/
example : BM.check_kernel_basis (fun _ => ok 0) ⟨1, 2, [bv (1#64 <<< 63) 2]⟩ ⟨1, 2, [bv (1#64 <<< 63) 2]⟩ = ok () := by decide +kernel
/-- (1 0) == (0 1) -/
example : BM.eq ⟨1, 2, [bv (1#64 <<< 63) 2]⟩ ⟨1, 2, [bv (1#64 <<< 62) 2]⟩ = ok true := by decide +kernel
/-- the identity of size two is its own inverse, the matrix (1 1; 1 1) is not -/
example : BM.check_inverse (fun _ => ok 0) ⟨2, 2, [bv (1#64 <<< 63) 2, bv (1#64 <<< 62) 2]⟩ ⟨2, 2, [bv (1#64 <<< 63) 2, bv (1#64 <<< 62) 2]⟩ = ok () := by
  decide +kernel
example : BM.check_inverse (fun _ => ok 0) ⟨2, 2, [bv (3#64 <<< 62) 2, bv (3#64 <<< 62) 2]⟩ ⟨2, 2, [bv (1#64 <<< 63) 2, bv (1#64 <<< 62) 2]⟩ = throw := by
  decide +kernel

end Check
end Spffl.Props
