/-
Property C126: polynomials evaluated at matrices (pre-cmake/tools/single.cpp).
-/
import Verif.Model.PolyMat
import Verif.Proof.MatInverse
import Verif.Props.TMatrix
import Mathlib.LinearAlgebra.Matrix.Charpoly.Coeff

namespace Spffl.Props
open Res Polynomial CPoly
namespace PolyMat
variable {U : Prop} {α F : Type} [Field F] {O : CoefOps α} {rep : α → F → Prop} {ord : F → F → Prop} {n : ℕ}

theorem fill_zero {zero : α} (hz : rep zero 0) (hn : 0 < n) :
    (TMat.fill zero (n : Int) (n : Int)).Sat U (fun A => MRep rep A (0 : Matrix (Fin n) (Fin n) F)) := by
  unfold TMat.fill
  rw [if_neg (by omega)]
  simp only [Int.toNat_natCast, Sat_ok]
  exact ⟨⟨rfl, rfl, fun i hi => ⟨List.replicate n zero, by simp [hi], by simp⟩⟩, fun i j => ⟨zero, by simp [ent], by simpa using hz⟩⟩

/-- C126: the value of a polynomial at a square matrix, for any coefficients that refine a field. -/
theorem C126_value (H : CoefRef U O rep ord) {f : CPoly α} {P : F[X]} {A : TMat α} {M : Matrix (Fin n) (Fin n) F} (hn : 0 < n)
    (hf : PRep rep f P) (hA : MRep rep A M) {zero one : α} (hz : rep zero 0) (ho : rep one 1) :
    (Single.poly_of_matrix O O.tops f A zero one).Sat U (fun r => MRep rep r (aeval M P)) := by
  unfold Single.poly_of_matrix
  rw [hA.shape.nr, hA.shape.nc]
  refine (fill_zero hz hn).bind fun Z hZ => ?_
  refine (make_I_sat hA hz ho).bind fun I hI => ?_
  refine (forUp_sat (fun i (s : TMat α × TMat α) => MRep rep s.1 (∑ k ∈ Finset.range i, P.coeff k • M ^ k) ∧ MRep rep s.2 (M ^ i)) (Nat.zero_le _)
    ⟨by simpa using hZ, by simpa using hI⟩ fun i s _ _ ⟨h1, h2⟩ => ?_).bind fun s ⟨h1, _⟩ => ?_
  · refine (get_coeff_sat H hf i).bind fun c hc => ?_
    refine (smul_sat' H.elt hn hn h2 hc).bind fun B hB => ?_
    refine (add_sat' H.elt hn hn h1 hB).bind fun C hC => ?_
    refine (mul_sat' H.elt hn hn hn h2 hA).bind fun D hD => ?_
    rw [Sat_ok]
    exact ⟨by rwa [Finset.sum_range_succ], by rwa [pow_succ]⟩
  · rw [Sat_ok, aeval_eq_sum_range, hf.deg]
    exact h1

/-- C126: a matrix that is not square is refused. -/
theorem C126_not_square {f : CPoly α} {A : TMat α} (h : A.num_rows ≠ A.num_cols) (zero one : α) :
    Single.poly_of_matrix O O.tops f A zero one = throw := by
  unfold Single.poly_of_matrix TMat.fill TMat.make_I TMat.is_square
  split
  · rfl
  · rw [ok_bind, if_pos (by simp [h])]; rfl

/-- C126: the polynomial is printed exactly if it is a multiple of the minimal polynomial of the matrix. -/
theorem C126_prints (H : CoefRef U O rep ord) {f : CPoly α} {P : F[X]} {A : TMat α} {M : Matrix (Fin n) (Fin n) F} (hn : 0 < n)
    (hf : PRep rep f P) (hA : MRep rep A M) {zero one : α} (hz : rep zero 0) (ho : rep one 1) :
    (Single.prints O O.tops f A zero one).Sat U (fun r => r = true ↔ minpoly F M ∣ P) := by
  unfold Single.prints TMat.is_zero
  refine (C126_value H hn hf hA hz ho).bind fun B hB => ?_
  refine (find_one_sat H.elt hn hn hB).bind fun o h => ?_
  rw [Sat_ok, minpoly.dvd_iff]
  cases o with
  | none => exact ⟨fun _ => h, fun _ => rfl⟩
  | some e => exact ⟨fun h' => by simp at h', fun h' => absurd h' h.1⟩

/-- C126 for the program: coefficients in a field with 2^d elements; the program returns, and prints the polynomial exactly if it is a
multiple of the minimal polynomial. -/
theorem C126_program {m : (ZMod 2)[X]} [hm : Fact (Irreducible m)] {f : CPoly F2Mod} {P : (AdjoinRoot m)[X]} {A : TMat F2Mod}
    {M : Matrix (Fin n) (Fin n) (AdjoinRoot m)} (hn : 0 < n) (hf : PRep (F2Mod.Rep m) f P) (hA : MRep (F2Mod.Rep m) A M) {zero one : F2Mod}
    (hz : F2Mod.Rep m zero 0) (ho : F2Mod.Rep m one 1) :
    (Single.prints F2Mod.cops F2Mod.cops.tops f A zero one).Ok (fun r => r = true ↔ minpoly (AdjoinRoot m) M ∣ P) :=
  sat_false.1 (C126_prints (F2Mod.cops_ref hm.out.ne_zero) hn hf hA hz ho)

/-- C126: the characteristic polynomial is always printed. -/
theorem C126_charpoly {m : (ZMod 2)[X]} [hm : Fact (Irreducible m)] {f : CPoly F2Mod} {A : TMat F2Mod}
    {M : Matrix (Fin n) (Fin n) (AdjoinRoot m)} (hn : 0 < n) (hf : PRep (F2Mod.Rep m) f M.charpoly) (hA : MRep (F2Mod.Rep m) A M)
    {zero one : F2Mod} (hz : F2Mod.Rep m zero 0) (ho : F2Mod.Rep m one 1) :
    Single.prints F2Mod.cops F2Mod.cops.tops f A zero one = ok true := by
  obtain ⟨r, h1, h2⟩ := C126_program hn hf hA hz ho
  rw [h1, h2.2 (minpoly.dvd _ _ (Matrix.aeval_self_charpoly M))]

/-! ### examples -/

private def v7 (l : List Int) : TVec IntMod := l.map fun a => ⟨a, 7⟩

/-- x² + 6 x at (1 1; 0 2): (1 3; 0 4) + (6 6; 0 5) = (0 2; 0 2) modulo 7 -/
example : Single.poly_of_matrix IntMod.cops IntMod.cops.tops ⟨2, v7 [0, 6, 1]⟩ ⟨2, 2, [v7 [1, 1], v7 [0, 2]]⟩ ⟨0, 7⟩ ⟨1, 7⟩ =
    ok ⟨2, 2, [v7 [0, 2], v7 [0, 2]]⟩ := by decide +kernel
/-- (x - 1)(x - 2) = x² + 4 x + 2 is printed, x² + 6 x is not -/
example : Single.prints IntMod.cops IntMod.cops.tops ⟨2, v7 [2, 4, 1]⟩ ⟨2, 2, [v7 [1, 1], v7 [0, 2]]⟩ ⟨0, 7⟩ ⟨1, 7⟩ = ok true := by decide +kernel
example : Single.prints IntMod.cops IntMod.cops.tops ⟨2, v7 [0, 6, 1]⟩ ⟨2, 2, [v7 [1, 1], v7 [0, 2]]⟩ ⟨0, 7⟩ ⟨1, 7⟩ = ok false := by decide +kernel
/-- a matrix that is not square -/
example : Single.prints IntMod.cops IntMod.cops.tops ⟨2, v7 [0, 6, 1]⟩ ⟨1, 2, [v7 [1, 1]]⟩ ⟨0, 7⟩ ⟨1, 7⟩ = throw := by decide +kernel

end PolyMat
end Spffl.Props
