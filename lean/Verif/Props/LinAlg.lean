/-
Properties C63, C64, C80 - C82: companion matrices, characteristic polynomials, determinants over polynomial rings,
vectors and matrices from base representations.

`Matrix.charpoly`, `Matrix.det` and `aeval` are Mathlib's.  `F2Mat A M`, `TM.FpMat p A M` and `TM.F2nMat f A M` say
that the matrix object `A` has the entries of `M`.
-/
import Verif.Proof.LinAlg
import Verif.Proof.BaseRep
import Verif.Props.TMatrix
import Verif.Props.CPoly
import Mathlib.LinearAlgebra.Matrix.Charpoly.LinearMap

namespace Spffl.Props
open Res Polynomial LinAlg CP
namespace LA

abbrev F2Mat {m n : ℕ} (A : TMat BitT) (M : Matrix (Fin m) (Fin n) (ZMod 2)) : Prop := MRep BitT.Rep A M

/-- a bit_t object holds 0 or 1 -/
theorem bit_rep_iff {b : BitT} {x : ZMod 2} : BitT.Rep b x ↔ b.residue = (if x = 0 then 0#8 else 1#8) := Iff.rfl

/-- every matrix over F2 is the denotation of an object -/
theorem f2mat_exists {m n : ℕ} (M : Matrix (Fin m) (Fin n) (ZMod 2)) : ∃ A, F2Mat A M := TM.C42_exists BitT.exists_rep M

/-- two tmatrix objects over bit_t that hold the same matrix agree -/
theorem f2mat_functional {m n : ℕ} {A : TMat BitT} {M N : Matrix (Fin m) (Fin n) (ZMod 2)} (h : F2Mat A M) (h' : F2Mat A N) : M = N := by
  refine TM.C42_functional (fun {a x y} hx hy => ?_) h h'
  unfold BitT.Rep at hx hy
  rw [hx] at hy
  revert hy; clear hx; revert x y; decide

/-! ### C63: companion matrices -/

/-- C63 over F2: every polynomial of positive degree (over F2 they are all monic). -/
theorem C63_f2 {f : F2P} (hd : 0 < (F2P.toPoly f).natDegree) :
    (f2_companion_matrix f).Ok fun A => ∃ M : Matrix (Fin (F2P.toPoly f).natDegree) (Fin (F2P.toPoly f).natDegree) (ZMod 2),
      F2Mat A M ∧ M.charpoly = F2P.toPoly f ∧ aeval M (F2P.toPoly f) = 0 := by
  have hm : (F2P.toPoly f).Monic := by
    have h0 : F2P.toPoly f ≠ 0 := by rintro h; rw [h] at hd; simp at hd
    have : (F2P.toPoly f).leadingCoeff ≠ 0 := leadingCoeff_ne_zero.mpr h0
    unfold Monic
    revert this; generalize (F2P.toPoly f).leadingCoeff = c; revert c; decide
  have hc := companion_charpoly hm rfl hd
  exact (sat_false.mp (f2_companion_sat hd rfl)).mono fun A hA => ⟨_, hA, hc, by rw [← congrArg (aeval (companion _ _)) hc]; exact Matrix.aeval_self_charpoly _⟩

/-- C63 over F2, through the code: the characteristic polynomial of the companion matrix is the polynomial. -/
theorem C63_f2_round_trip {f : F2P} (hf : F2P.Canon f) (hd : 0 < (F2P.toPoly f).natDegree) :
    (f2_companion_matrix f >>= f2_char_poly) = ok f := by
  obtain ⟨A, h1, M, h2, h3, -⟩ := C63_f2 hd
  obtain ⟨g, h4, h5, h6⟩ := sat_false.mp (f2_char_poly_sat hd h2)
  rw [h1, ok_bind, h4, h5.eq hf (by rw [h6, h3])]

/-- C63 over Fp: every monic polynomial of positive degree. -/
theorem C63_fp {p : ℕ} [hp : Fact p.Prime] (hb : p ≤ 46341) {f : CPoly IntMod} {g : (ZMod p)[X]} (hf : Fp p f g) (hg : g.Monic)
    (hd : 0 < g.natDegree) :
    (fp_companion_matrix f).Ok fun A => ∃ M : Matrix (Fin g.natDegree) (Fin g.natDegree) (ZMod p),
      TM.FpMat p A M ∧ M.charpoly = g ∧ aeval M g = 0 := by
  have hc := companion_charpoly hg rfl hd
  exact (sat_false.mp (companion_sat (IntMod.cops_ref hp.out.two_le hb) hf hd)).mono fun A hA =>
    ⟨_, hA, hc, by rw [← congrArg (aeval (companion _ _)) hc]; exact Matrix.aeval_self_charpoly _⟩

/-- C63 over Fp, through the code. -/
theorem C63_fp_round_trip {p : ℕ} [hp : Fact p.Prime] (hb : p ≤ 46341) {f : CPoly IntMod} {g : (ZMod p)[X]} (hf : Fp p f g) (hg : g.Monic)
    (hd : 0 < g.natDegree) : (fp_companion_matrix f >>= fp_char_poly).Ok fun r => Fp p r g := by
  obtain ⟨A, h1, M, h2, h3, -⟩ := C63_fp hb hf hg hd
  rw [h1, ok_bind, ← h3]
  exact sat_false.mp (char_poly_sat (IntMod.cops_ref hp.out.two_le hb) _ hd h2)

/-- C63 over F2^n: every monic polynomial of positive degree over the field F2[x]/(m). -/
theorem C63_f2n {m : (ZMod 2)[X]} [hm : Fact (Irreducible m)] {f : CPoly F2Mod} {g : (AdjoinRoot m)[X]} (hf : F2n m f g) (hg : g.Monic)
    (hd : 0 < g.natDegree) :
    (f2np_companion_matrix f).Ok fun A => ∃ M : Matrix (Fin g.natDegree) (Fin g.natDegree) (AdjoinRoot m),
      TM.F2nMat m A M ∧ M.charpoly = g ∧ aeval M g = 0 := by
  have hc := companion_charpoly hg rfl hd
  exact (sat_false.mp (companion_sat (F2Mod.cops_ref hm.out.ne_zero) hf hd)).mono fun A hA =>
    ⟨_, hA, hc, by rw [← congrArg (aeval (companion _ _)) hc]; exact Matrix.aeval_self_charpoly _⟩

/-- C63 over F2^n, through the code. -/
theorem C63_f2n_round_trip {m : (ZMod 2)[X]} [hm : Fact (Irreducible m)] {f : CPoly F2Mod} {g : (AdjoinRoot m)[X]} (hf : F2n m f g)
    (hg : g.Monic) (hd : 0 < g.natDegree) : (f2np_companion_matrix f >>= f2n_char_poly).Ok fun r => F2n m r g := by
  obtain ⟨A, h1, M, h2, h3, -⟩ := C63_f2n hf hg hd
  rw [h1, ok_bind, ← h3]
  exact sat_false.mp (char_poly_sat (F2Mod.cops_ref hm.out.ne_zero) _ hd h2)

/-- C63 fails for the monic polynomial 1 (and for every constant): its companion matrix has no rows, which the matrix
class rejects. -/
theorem C63_violated_constant :
    (∀ f : F2P, (F2P.toPoly f).natDegree = 0 → f2_companion_matrix f = throw) ∧
    (∀ f : CPoly IntMod, f.degree = 0 → fp_companion_matrix f = throw) ∧
    (∀ f : CPoly F2Mod, f.degree = 0 → f2np_companion_matrix f = throw) :=
  ⟨fun _ h => f2_companion_throw h, fun _ h => companion_throw h, fun _ h => companion_throw h⟩

-- x^3 + x + 1 over F2, x^2 + 2x + 3 over F5, y^2 + y + x over F4
example : f2_companion_matrix [0xb#64] = ok ⟨3, 3, [[⟨0⟩, ⟨1⟩, ⟨1⟩], [⟨1⟩, ⟨0⟩, ⟨0⟩], [⟨0⟩, ⟨1⟩, ⟨0⟩]]⟩ := by decide +kernel
example : fp_companion_matrix ⟨2, [⟨3, 5⟩, ⟨2, 5⟩, ⟨1, 5⟩]⟩ = ok ⟨2, 2, [[⟨3, 5⟩, ⟨2, 5⟩], [⟨1, 5⟩, ⟨0, 5⟩]]⟩ := by decide +kernel
example : f2np_companion_matrix ⟨2, [⟨[2#64], [7#64]⟩, ⟨[1#64], [7#64]⟩, ⟨[1#64], [7#64]⟩]⟩ =
    ok ⟨2, 2, [[⟨[1#64], [7#64]⟩, ⟨[2#64], [7#64]⟩], [⟨[1#64], [7#64]⟩, ⟨[0#64], [7#64]⟩]]⟩ := by decide +kernel
example : F2P.Canon [0xb#64] ∧ 0 < (F2P.toPoly [0xb#64]).natDegree := by
  refine ⟨F2P.canon_single _, ?_⟩
  have h := F2P.find_degree_ok [0xb#64]
  rw [show F2P.find_degree [0xb#64] = ok 3 by decide +kernel] at h
  have := ok.inj h
  omega

/-! ### C64, C80: characteristic polynomials -/

/-- C64: `det(A - x I)`; over F2 this is the characteristic polynomial `det(x I - A)`. -/
theorem C64_f2_char_poly {n : ℕ} (hn : 0 < n) {A : TMat BitT} {M : Matrix (Fin n) (Fin n) (ZMod 2)} (hA : F2Mat A M) :
    (f2_char_poly A).Ok fun r => F2P.Canon r ∧ F2P.toPoly r = (M.map C - (X : (ZMod 2)[X]) • 1).det ∧ F2P.toPoly r = M.charpoly := by
  refine (sat_false.mp (f2_char_poly_sat hn hA)).mono fun r ⟨h1, h2⟩ => ⟨h1, ?_, h2⟩
  have h3 : (1 : (ZMod 2)[X]) = -1 := by
    rw [eq_neg_iff_add_eq_zero, one_add_one_eq_two]; exact F2P.two_eq_zero
  rw [h2, Matrix.charpoly, Matrix.charmatrix]
  have : (M.map C - (X : (ZMod 2)[X]) • 1) = -(Matrix.scalar (Fin n) X - C.mapMatrix M) := by
    rw [neg_sub]
    congr 1
    ext i j; simp [Matrix.smul_apply, Matrix.one_apply, Matrix.diagonal_apply]
  rw [this, Matrix.det_neg]
  simp [← h3]

/-- C64: a matrix that is not square is rejected. -/
theorem C64_nonsquare {A : TMat BitT} (h : A.num_rows ≠ A.num_cols) : f2_char_poly A = throw := f2_char_poly_nonsquare h

/-- C64: Cayley-Hamilton for the code's polynomial. -/
theorem C64_annihilates {n : ℕ} (hn : 0 < n) {A : TMat BitT} {M : Matrix (Fin n) (Fin n) (ZMod 2)} (hA : F2Mat A M) :
    (f2_char_poly A).Ok fun r => aeval M (F2P.toPoly r) = 0 ∧ (F2P.toPoly r).natDegree = n ∧ (F2P.toPoly r).coeff 0 = M.det := by
  refine (C64_f2_char_poly hn hA).mono fun r ⟨_, _, h⟩ => ?_
  rw [h]
  refine ⟨Matrix.aeval_self_charpoly _, by simp [Matrix.charpoly_natDegree_eq_dim], ?_⟩
  rw [Matrix.det_eq_sign_charpoly_coeff]
  have : (-1 : ZMod 2) = 1 := by decide
  simp [this]

/-- C80 over Fp. -/
theorem C80_fp {p : ℕ} [hp : Fact p.Prime] (hb : p ≤ 46341) {n : ℕ} (hn : 0 < n) {A : TMat IntMod} {M : Matrix (Fin n) (Fin n) (ZMod p)}
    (hA : TM.FpMat p A M) : (fp_char_poly A).Ok fun r => Fp p r M.charpoly :=
  sat_false.mp (char_poly_sat (IntMod.cops_ref hp.out.two_le hb) _ hn hA)

/-- C80 over F2^n. -/
theorem C80_f2n {m : (ZMod 2)[X]} [hm : Fact (Irreducible m)] {n : ℕ} (hn : 0 < n) {A : TMat F2Mod}
    {M : Matrix (Fin n) (Fin n) (AdjoinRoot m)} (hA : TM.F2nMat m A M) : (f2n_char_poly A).Ok fun r => F2n m r M.charpoly :=
  sat_false.mp (char_poly_sat (F2Mod.cops_ref hm.out.ne_zero) _ hn hA)

theorem C80_nonsquare : (∀ A : TMat IntMod, A.num_rows ≠ A.num_cols → fp_char_poly A = throw) ∧
    (∀ A : TMat F2Mod, A.num_rows ≠ A.num_cols → f2n_char_poly A = throw) :=
  ⟨fun _ h => char_poly_nonsquare _ h, fun _ h => char_poly_nonsquare _ h⟩

-- [[1,1],[1,0]] over F2, [[1,2],[3,4]] over F5, [[1,x],[1,0]] over F4
example : f2_char_poly ⟨2, 2, [[⟨1⟩, ⟨1⟩], [⟨1⟩, ⟨0⟩]]⟩ = ok [7#64] := by decide +kernel
example : fp_char_poly ⟨2, 2, [[⟨1, 5⟩, ⟨2, 5⟩], [⟨3, 5⟩, ⟨4, 5⟩]]⟩ = ok ⟨2, [⟨3, 5⟩, ⟨0, 5⟩, ⟨1, 5⟩]⟩ := by decide +kernel
example : f2n_char_poly ⟨2, 2, [[⟨[1#64], [7#64]⟩, ⟨[2#64], [7#64]⟩], [⟨[1#64], [7#64]⟩, ⟨[0#64], [7#64]⟩]]⟩ =
    ok ⟨2, [⟨[2#64], [7#64]⟩, ⟨[1#64], [7#64]⟩, ⟨[1#64], [7#64]⟩]⟩ := by decide +kernel
example : f2_char_poly ⟨1, 2, [[⟨1⟩, ⟨1⟩]]⟩ = throw := by decide +kernel

/-! ### C81: determinants of polynomial matrices -/

/-- C81 over F2[x]: every non-zero square matrix.  Missing: the zero matrix (`C81_violated_zero`). -/
theorem C81_f2_partial {n : ℕ} (hn : 0 < n) {A : TMat F2P} {M : Matrix (Fin n) (Fin n) (ZMod 2)[X]}
    (hA : MRep F2P.ERep A M) (hM : M ≠ 0) : (TMat.ed_det F2P.edops A).Ok fun r => F2P.Canon r ∧ F2P.toPoly r = M.det :=
  sat_false.mp (ed_det_sat F2P.edref hn hA hM)

/-- C81 over Fp[x]: every non-zero square matrix.  Missing: the zero matrix (`C81_violated_zero`). -/
theorem C81_fp_partial {p : ℕ} [hp : Fact p.Prime] (hb : p ≤ 46341) (d : IntMod) {n : ℕ} (hn : 0 < n) {A : TMat (CPoly IntMod)}
    {M : Matrix (Fin n) (Fin n) (ZMod p)[X]} (hA : MRep (Fp p) A M) (hM : M ≠ 0) :
    (TMat.ed_det (CPoly.edops IntMod.cops d) A).Ok fun r => Fp p r M.det :=
  sat_false.mp (ed_det_sat (CPoly.edref (IntMod.cops_ref hp.out.two_le hb) d) hn hA hM)

/-- C81 over F2^n[y]: every non-zero square matrix.  Missing: the zero matrix (`C81_violated_zero`). -/
theorem C81_f2n_partial {m : (ZMod 2)[X]} [hm : Fact (Irreducible m)] (d : F2Mod) {n : ℕ} (hn : 0 < n) {A : TMat (CPoly F2Mod)}
    {M : Matrix (Fin n) (Fin n) (AdjoinRoot m)[X]} (hA : MRep (F2n m) A M) (hM : M ≠ 0) :
    (TMat.ed_det (CPoly.edops F2Mod.cops d) A).Ok fun r => F2n m r M.det :=
  sat_false.mp (ed_det_sat (CPoly.edref (F2Mod.cops_ref hm.out.ne_zero) d) hn hA hM)

/-- C81 fails for zero matrices of every size: the denominator keeps its default-constructed value and dividing by it throws. -/
theorem C81_violated_zero {n : ℕ} (hn : 0 < n) :
    (∀ A : TMat F2P, MRep F2P.ERep A (0 : Matrix (Fin n) (Fin n) (ZMod 2)[X]) → TMat.ed_det F2P.edops A = throw) ∧
    (∀ p : ℕ, p.Prime → p ≤ 46341 → ∀ A : TMat (CPoly IntMod), MRep (Fp p) A (0 : Matrix (Fin n) (Fin n) (ZMod p)[X]) →
      TMat.ed_det (CPoly.edops IntMod.cops ⟨0, 1⟩) A = throw) ∧
    (∀ m : (ZMod 2)[X], Irreducible m → ∀ A : TMat (CPoly F2Mod), MRep (F2n m) A (0 : Matrix (Fin n) (Fin n) (AdjoinRoot m)[X]) →
      TMat.ed_det (CPoly.edops F2Mod.cops ⟨F2P.zero, F2P.one⟩) A = throw) := by
  refine ⟨fun A hA => throws_false.mp (ed_det_zero F2P.edref hn hA fun a ha => ?_), fun p hp hb A hA => ?_, fun m hm A hA => ?_⟩
  · refine throws_false.mpr ?_
    show F2P.mod a F2P.zero = throw
    unfold F2P.mod
    rw [F2P.quot_and_rem_throw F2P.canon_zero.ne_nil F2P.toPoly_zero]; rfl
  · haveI : Fact p.Prime := ⟨hp⟩
    have H := IntMod.cops_ref hp.two_le hb
    exact throws_false.mp (ed_det_zero (CPoly.edref H _) hn hA fun a ha =>
      CPoly.mod_dflt H (fun c x h => throws_false.mpr (IntMod.lt_dflt hp.two_le h)) ha)
  · haveI : Fact (Irreducible m) := ⟨hm⟩
    have H := F2Mod.cops_ref hm.ne_zero
    exact throws_false.mp (ed_det_zero (CPoly.edref H _) hn hA fun a ha =>
      CPoly.mod_dflt H (fun c x h => throws_false.mpr (F2Mod.lt_dflt hm h)) ha)

/-- C81: a matrix that is not square is rejected. -/
theorem C81_nonsquare {α : Type} (O : EDOps α) {A : TMat α} (h : A.num_rows ≠ A.num_cols) : TMat.ed_det O A = throw := by
  unfold TMat.ed_det TMat.is_square
  rw [beq_eq_false_iff_ne.mpr h]; rfl

-- [[x, 1], [x+1, x]] over F2[x]: x^2 + x + 1; [[2x, 1], [3, x]] over F5[x]
example : TMat.ed_det F2P.edops ⟨2, 2, [[[2#64], [1#64]], [[3#64], [2#64]]]⟩ = ok [7#64] := by decide +kernel
example : TMat.ed_det (CPoly.edops IntMod.cops ⟨0, 1⟩) ⟨2, 2, [[⟨1, [⟨0, 5⟩, ⟨2, 5⟩]⟩, ⟨0, [⟨1, 5⟩]⟩], [⟨0, [⟨3, 5⟩]⟩, ⟨1, [⟨0, 5⟩, ⟨1, 5⟩]⟩]]⟩ =
    ok ⟨2, [⟨2, 5⟩, ⟨0, 5⟩, ⟨2, 5⟩]⟩ := by decide +kernel
example : TMat.ed_det F2P.edops ⟨2, 2, [[[0#64], [0#64]], [[0#64], [0#64]]]⟩ = throw := by decide +kernel
example {n : ℕ} (M : Matrix (Fin n) (Fin n) (ZMod 2)[X]) : ∃ A, MRep F2P.ERep A M :=
  TM.C42_exists (fun x => (F2P.exists_canon x)) M

/-! ### C82: base representations -/

/-- C82 over F2: the vector holds the `len` low bits of the two's complement representation, highest first. -/
theorem C82_f2_vector (b : Int) {len : ℕ} (hl : 0 < len) :
    (f2_vector_from_base_rep b len).Ok fun v => ∃ x : Fin len → ZMod 2, VRep BitT.Rep v x ∧
      (∑ i : Fin len, ((x i).val : Int) * 2 ^ (len - 1 - (i : ℕ)) = b % 2 ^ len) := by
  refine (sat_false.mp (f2_vector_sat b hl)).mono fun v ⟨x, h1, h2⟩ => ⟨x, h1, ?_⟩
  rw [← sum_bits_rev b len]
  exact Finset.sum_congr rfl fun i _ => by rw [h2, zval_bit]

/-- C82 over F2: the matrix holds the `nr * nc` low bits, row by row, highest first. -/
theorem C82_f2_matrix (b : Int) {nr nc : ℕ} (hr : 0 < nr) (hc : 0 < nc) :
    (f2_matrix_from_base_rep b nr nc).Ok fun A => ∃ M : Matrix (Fin nr) (Fin nc) (ZMod 2), F2Mat A M ∧
      (∑ i : Fin nr, ∑ j : Fin nc, ((M i j).val : Int) * 2 ^ (nr * nc - 1 - ((i : ℕ) * nc + j)) = b % 2 ^ (nr * nc)) := by
  refine (sat_false.mp (f2_matrix_sat b hr hc)).mono fun A ⟨M, h1, h2⟩ => ⟨M, h1, ?_⟩
  rw [← sum_bits_matrix b nr nc]
  exact Finset.sum_congr rfl fun i _ => Finset.sum_congr rfl fun j _ => by rw [h2, zval_bit]

/-- C82 over Fp: the digits of a non-negative number in base `p`, highest first. -/
theorem C82_fp_vector {b p len : ℕ} (hb : InInt b) (hp : 0 < p) (hp' : InInt p) (hl : 0 < len) :
    (fp_vector_from_base_rep b p len).Ok fun v => ∃ x : Fin len → ZMod p, TM.FpVec p v x ∧
      ∑ i : Fin len, (x i).val * p ^ (len - 1 - (i : ℕ)) = b % p ^ len :=
  sat_false.mp (fp_vector_sat hb hp hp' hl)

/-- C82 over F2^n: the digits in base `2^n`, each the bit pattern of the residue.  Moduli up to degree 31.
Missing: larger degrees (`C82_violated_32`). -/
theorem C82_f2n_vector_partial {b len : ℕ} (hb : InInt b) {m : F2P} (hm : F2P.Canon m) (hm0 : F2P.toPoly m ≠ 0)
    (hd : (F2P.toPoly m).natDegree < 32) (hl : 0 < len) :
    (ft_vector_from_base_rep b m len).Ok fun v => ∃ f : Fin len → (ZMod 2)[X], (∀ i, (f i).degree < (F2P.toPoly m).degree) ∧
      VRep (F2Mod.Rep (F2P.toPoly m)) v (fun i => AdjoinRoot.mk _ (f i)) ∧
      ∑ i : Fin len, F2P.nval (f i) * (2 ^ (F2P.toPoly m).natDegree) ^ (len - 1 - (i : ℕ)) =
        b % (2 ^ (F2P.toPoly m).natDegree) ^ len :=
  sat_false.mp (ft_vector_sat hb hm rfl hm0 hd hl)

/-- C82 fails for every modulus of degree 32 or more: the base `1 << degree` is undefined. -/
theorem C82_violated_32 {b : Int} {len : ℕ} {m : F2P} (hd : 32 ≤ (F2P.toPoly m).natDegree) (hl : 0 < len) :
    ft_vector_from_base_rep b m len = ub := ft_vector_ub hd hl

example : f2_vector_from_base_rep 6 4 = ok [⟨0⟩, ⟨1⟩, ⟨1⟩, ⟨0⟩] := by decide +kernel
example : f2_vector_from_base_rep (-1) 3 = ok [⟨1⟩, ⟨1⟩, ⟨1⟩] := by decide +kernel
example : f2_matrix_from_base_rep 9 2 2 = ok ⟨2, 2, [[⟨1⟩, ⟨0⟩], [⟨0⟩, ⟨1⟩]]⟩ := by decide +kernel
example : fp_vector_from_base_rep 38 5 3 = ok [⟨1, 5⟩, ⟨2, 5⟩, ⟨3, 5⟩] := by decide +kernel
example : ft_vector_from_base_rep 27 [7#64] 3 = ok [⟨[1#64], [7#64]⟩, ⟨[2#64], [7#64]⟩, ⟨[3#64], [7#64]⟩] := by decide +kernel

end LA
end Spffl.Props
