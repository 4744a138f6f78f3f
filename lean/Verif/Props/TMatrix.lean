/-
Properties C42-C49: vectors and matrices (tvector.h, tmatrix.h).

The theorems are stated for any element type whose operations refine a field `F` (or, for C42, a commutative
ring `R`): `EltRef U O rep` says that `+ - * / ==` return representatives of the right elements, undefined
behaviour being allowed only if `U` holds.  `C42_inst_*` provide the element types of the library; with `U = False`
the conclusion `Sat False` is "always returns, and the result satisfies" (`Res.sat_false`), which the `_fp`
versions spell out for intmod_t.
-/
import Verif.Proof.MatInverse
import Verif.Proof.CMod
import Verif.Proof.CoefInst
import Verif.Proof.IntRat

namespace Spffl.Props
open Res Polynomial
namespace TM

/-! ### element types -/

/-- intmod_t with a common modulus -/
theorem C42_inst_intmod {m : ℕ} (h2 : 2 ≤ m) (hm : m ≤ 46341) :
    EltRef False IntMod.cops.tops (IntMod.Rep m) ∧ NegRef False IntMod.cops.tops (IntMod.Rep m) :=
  ⟨(IntMod.cops_ref h2 hm).elt, (IntMod.cops_ref h2 hm).negRef⟩

/-- f2_polymod_t with a common non-zero modulus -/
theorem C42_inst_f2_polymod {m : (ZMod 2)[X]} (hm : m ≠ 0) :
    EltRef False F2Mod.cops.tops (F2Mod.Rep m) ∧ NegRef False F2Mod.cops.tops (F2Mod.Rep m) :=
  ⟨(F2Mod.cops_ref hm).elt, (F2Mod.cops_ref hm).negRef⟩

/-- fp_polymod_t; unary minus may be undefined -/
theorem C42_inst_fp_polymod {p : ℕ} [hp : Fact p.Prime] (hb : p ≤ 46341) {M : (ZMod p)[X]} (hM : M ≠ 0) :
    EltRef False FpMod.cops.tops (CMod.Rep (IntMod.Rep p) M) ∧ NegRef True FpMod.cops.tops (CMod.Rep (IntMod.Rep p) M) := by
  have H := FpMod.copsNeg_ref (p := p) hb hM
  exact ⟨⟨H.add, H.sub, H.mul, H.div, H.eq⟩, (FpMod.cops_ref hb hM).negRef⟩

/-- intrat_t; overflow may be undefined -/
theorem C42_inst_intrat : EltRef True IntRat.cops.tops IntRat.Rep ∧ NegRef True IntRat.cops.tops IntRat.Rep :=
  ⟨IntRat.cops_ref.elt, IntRat.cops_ref.negRef⟩

/-- `m` by `n` matrices of intmod_t objects modulo `p` -/
abbrev FpMat (p : ℕ) {m n : ℕ} (A : TMat IntMod) (M : Matrix (Fin m) (Fin n) (ZMod p)) : Prop := MRep (IntMod.Rep p) A M
abbrev FpVec (p : ℕ) {n : ℕ} (v : TVec IntMod) (x : Fin n → ZMod p) : Prop := VRep (IntMod.Rep p) v x

/-- Every matrix is the denotation of some object, whenever every element is. -/
theorem C42_exists {α R : Type} {rep : α → R → Prop} (h : ∀ x : R, ∃ a, rep a x) {m n : ℕ} (M : Matrix (Fin m) (Fin n) R) :
    ∃ A, MRep rep A M := by
  choose f hf using h
  refine ⟨⟨m, n, List.ofFn fun i => List.ofFn fun j => f (M i j)⟩, ⟨rfl, rfl, fun i hi => ⟨List.ofFn fun j => f (M ⟨i, hi⟩ j), by simp [hi], by simp⟩⟩, fun i j => ⟨f (M i j), by simp [ent], hf _⟩⟩

/-- An object denotes at most one matrix, whenever this is so for elements. -/
theorem C42_functional {α R : Type} {rep : α → R → Prop} (h : ∀ {a x y}, rep a x → rep a y → x = y) {m n : ℕ} {A : TMat α}
    {M N : Matrix (Fin m) (Fin n) R} (hM : MRep rep A M) (hN : MRep rep A N) : M = N := by
  ext i j
  obtain ⟨e, h1, h2⟩ := hM.ent i j
  obtain ⟨e', h1', h2'⟩ := hN.ent i j
  rw [h1] at h1'; cases h1'
  exact h h2 h2'

section ring
variable {U : Prop} {α R : Type} [CommRing R] {O : TOps α} {rep : α → R → Prop} {m n k : ℕ}

/-- C42: matrix operations. -/
theorem C42_matrix (H : EltRef U O rep) {A B : TMat α} {M N : Matrix (Fin m) (Fin n) R} (hm : 0 < m) (hn : 0 < n)
    (hA : MRep rep A M) (hB : MRep rep B N) :
    (TMat.add O A B).Sat U (fun r => MRep rep r (M + N)) ∧
    (TMat.sub O A B).Sat U (fun r => MRep rep r (M - N)) ∧
    (TMat.transpose O A).Sat U (fun r => MRep rep r M.transpose) ∧
    (TMat.eq O A B).Sat U (fun r => r = true ↔ M = N) ∧
    (∀ {s c}, rep s c → (TMat.smul O A s).Sat U (fun r => MRep rep r (c • M))) ∧
    (NegRef U O rep → (TMat.neg O A).Sat U (fun r => MRep rep r (-M))) :=
  ⟨add_sat' H hm hn hA hB, sub_sat' H hm hn hA hB, transpose_sat hm hn hA, meq_sat H hA hB,
    fun h => smul_sat' H hm hn hA h, fun h => neg_sat' h hm hn hA⟩

/-- C42: products. -/
theorem C42_products (H : EltRef U O rep) {A B : TMat α} {v w : TVec α} {M : Matrix (Fin m) (Fin k) R} {N : Matrix (Fin k) (Fin n) R}
    {x : Fin k → R} {y : Fin m → R} (hm : 0 < m) (hk : 0 < k) (hn : 0 < n) (hA : MRep rep A M) (hB : MRep rep B N) (hv : VRep rep v x)
    (hw : VRep rep w y) :
    (TMat.mul O A B).Sat U (fun r => MRep rep r (M * N)) ∧
    (TMat.mulVec O A v).Sat U (fun r => VRep rep r (M.mulVec x)) ∧
    (TMat.vecMul O w A).Sat U (fun r => VRep rep r (Matrix.vecMul y M)) ∧
    (TMat.outer O w v).Sat U (fun r => MRep rep r (Matrix.vecMulVec y x)) :=
  ⟨mul_sat' H hm hn hk hA hB, mulVec_sat H hm hk hA hv, vecMul_sat H hm hk hA hw, outer_sat H hm hk hw hv⟩

/-- C42: vector operations. -/
theorem C42_vector (H : EltRef U O rep) {a b : TVec α} {x y : Fin n → R} (hn : 0 < n) (ha : VRep rep a x) (hb : VRep rep b y) :
    (TVec.add O a b).Sat U (fun r => VRep rep r (x + y)) ∧
    (TVec.sub O a b).Sat U (fun r => VRep rep r (x - y)) ∧
    (TVec.cmul O a b).Sat U (fun r => VRep rep r (x * y)) ∧
    (TVec.dot O a b).Sat U (fun r => rep r (x ⬝ᵥ y)) ∧
    (TVec.eq O a b).Sat U (fun r => r = true ↔ x = y) ∧
    (∀ {s c}, rep s c → (TVec.smul O a s).Sat U (fun r => VRep rep r (c • x))) ∧
    (NegRef U O rep → (TVec.neg O a).Sat U (fun r => VRep rep r (-x))) := by
  refine ⟨vcomp_sat H.add hn ha hb, vcomp_sat H.sub hn ha hb, vcomp_sat H.mul hn ha hb, vdot_sat H hn ha hb, veq_sat H ha hb,
    fun h => vsmul_sat H hn ha h, fun h => vunary_sat h.neg hn ha⟩

/-- C42: scalars are added on the diagonal. -/
theorem C42_diagonal (H : EltRef U O rep) {A : TMat α} {M : Matrix (Fin n) (Fin n) R} (hA : MRep rep A M) {s : α} {c : R}
    (hs : rep s c) :
    (TMat.addScalar O A s).Sat U (fun r => MRep rep r (M + c • 1)) ∧
    (TMat.subScalar O A s).Sat U (fun r => MRep rep r (M - c • 1)) := by
  refine ⟨(addDiag_sat H.add hA hs).mono fun r hr => ?_, (addDiag_sat H.sub hA hs).mono fun r hr => ?_⟩
  · convert hr using 2
    ext i j
    by_cases h : i = j
    · subst h; simp
    · simp [h, Matrix.one_apply_ne h]
  · convert hr using 2
    ext i j
    by_cases h : i = j
    · subst h; simp
    · simp [h, Matrix.one_apply_ne h]

/-- C42: mismatched dimensions throw (equality of vectors of different lengths is just false). -/
theorem C42_mismatch (O : TOps α) (A B : TMat α) (v w : TVec α) :
    ((A.num_rows ≠ B.num_rows ∨ A.num_cols ≠ B.num_cols) →
      TMat.add O A B = throw ∧ TMat.sub O A B = throw ∧ TMat.eq O A B = throw) ∧
    (A.num_cols ≠ B.num_rows → TMat.mul O A B = throw) ∧
    (A.num_cols ≠ v.length → TMat.mulVec O A v = throw) ∧
    (v.length ≠ A.num_rows → TMat.vecMul O v A = throw) ∧
    (v.length ≠ w.length → TVec.add O v w = throw ∧ TVec.sub O v w = throw ∧ TVec.dot O v w = throw ∧ TVec.eq O v w = ok false) := by
  refine ⟨fun h => ⟨mcomp_throw h, mcomp_throw h, ?_⟩, mul_throw, mulVec_throw, vecMul_throw, fun h => ⟨vcomp_throw h, vcomp_throw h, ?_, veq_len h⟩⟩
  · unfold TMat.eq TMat.check_dims; rw [if_pos h]; rfl
  · unfold TVec.dot TVec.check_equal_lengths; rw [if_neg h]; rfl

end ring

/-- the matrices [[1,2],[3,4]] and [[0,1],[5,6]] modulo 7, and the vector (2,3) -/
def exA : TMat IntMod := ⟨2, 2, [[⟨1, 7⟩, ⟨2, 7⟩], [⟨3, 7⟩, ⟨4, 7⟩]]⟩
def exB : TMat IntMod := ⟨2, 2, [[⟨0, 7⟩, ⟨1, 7⟩], [⟨5, 7⟩, ⟨6, 7⟩]]⟩
def exv : TVec IntMod := [⟨2, 7⟩, ⟨3, 7⟩]
/-- a singular matrix of rank 2, 3 by 4: row 2 = row 0 + row 1 -/
def exS : TMat IntMod := ⟨3, 4, [[⟨0, 7⟩, ⟨1, 7⟩, ⟨2, 7⟩, ⟨3, 7⟩], [⟨0, 7⟩, ⟨2, 7⟩, ⟨4, 7⟩, ⟨1, 7⟩], [⟨0, 7⟩, ⟨3, 7⟩, ⟨6, 7⟩, ⟨4, 7⟩]]⟩

example : TMat.add IntMod.cops.tops exA exB = ok ⟨2, 2, [[⟨1, 7⟩, ⟨3, 7⟩], [⟨1, 7⟩, ⟨3, 7⟩]]⟩ := by decide +kernel
example : TMat.transpose IntMod.cops.tops exA = ok ⟨2, 2, [[⟨1, 7⟩, ⟨3, 7⟩], [⟨2, 7⟩, ⟨4, 7⟩]]⟩ := by decide +kernel
example : TMat.mul IntMod.cops.tops exA exB = ok ⟨2, 2, [[⟨3, 7⟩, ⟨6, 7⟩], [⟨6, 7⟩, ⟨6, 7⟩]]⟩ := by decide +kernel
example : TMat.mulVec IntMod.cops.tops exA exv = ok [⟨1, 7⟩, ⟨4, 7⟩] := by decide +kernel
example : TMat.vecMul IntMod.cops.tops exv exA = ok [⟨4, 7⟩, ⟨2, 7⟩] := by decide +kernel
example : TVec.dot IntMod.cops.tops exv exv = ok ⟨6, 7⟩ := by decide +kernel
example : TMat.addScalar IntMod.cops.tops exA ⟨3, 7⟩ = ok ⟨2, 2, [[⟨4, 7⟩, ⟨2, 7⟩], [⟨3, 7⟩, ⟨0, 7⟩]]⟩ := by decide +kernel
example : TMat.mul IntMod.cops.tops exS exS = throw := by decide +kernel
example : ∃ A, FpMat 7 A (!![1, 2; 3, 4] : Matrix (Fin 2) (Fin 2) (ZMod 7)) := C42_exists (IntMod.exists_rep (by omega)) _

/-- C42 for intmod_t matrices, written out. -/
theorem C42_fp {p : ℕ} (h2 : 2 ≤ p) (hp : p ≤ 46341) {m n k : ℕ} {A A' B : TMat IntMod} {M M' : Matrix (Fin m) (Fin k) (ZMod p)} {N : Matrix (Fin k) (Fin n) (ZMod p)}
    (hm : 0 < m) (hk : 0 < k) (hn : 0 < n) (hA : FpMat p A M) (hA' : FpMat p A' M') (hB : FpMat p B N) {v : TVec IntMod} {x : Fin k → ZMod p} (hv : FpVec p v x) :
    (TMat.add IntMod.cops.tops A A').Ok (fun r => FpMat p r (M + M')) ∧
    (TMat.sub IntMod.cops.tops A A').Ok (fun r => FpMat p r (M - M')) ∧
    (TMat.neg IntMod.cops.tops A).Ok (fun r => FpMat p r (-M)) ∧
    (TMat.transpose IntMod.cops.tops A).Ok (fun r => FpMat p r M.transpose) ∧
    (TMat.eq IntMod.cops.tops A A').Ok (fun r => r = true ↔ M = M') ∧
    (TMat.mul IntMod.cops.tops A B).Ok (fun r => FpMat p r (M * N)) ∧
    (TMat.mulVec IntMod.cops.tops A v).Ok (fun r => FpVec p r (M.mulVec x)) := by
  obtain ⟨H, N⟩ := C42_inst_intmod h2 hp
  exact ⟨sat_false.mp (add_sat' H hm hk hA hA'), sat_false.mp (sub_sat' H hm hk hA hA'), sat_false.mp (neg_sat' N hm hk hA),
    sat_false.mp (transpose_sat hm hk hA), sat_false.mp (meq_sat H hA hA'), sat_false.mp (mul_sat' H hm hn hk hA hB), sat_false.mp (mulVec_sat H hm hk hA hv)⟩

section field
variable {U : Prop} {α F : Type} [Field F] {O : TOps α} {rep : α → F → Prop} {m n : ℕ}

/-- C43: row_echelon_form returns a reduced echelon matrix with the same row space and the same kernel. -/
theorem C43_row_echelon (H : EltRef U O rep) {A : TMat α} {M : Matrix (Fin m) (Fin n) F} (hm : 0 < m) (hn : 0 < n) (hA : MRep rep A M) :
    (TMat.row_echelon_form O A).Sat U (fun r => ∃ M' : Matrix (Fin m) (Fin n) F, MRep rep r M' ∧ (∃ rk p, IsReduced M' rk p) ∧
      Submodule.span F (Set.range M'.row) = Submodule.span F (Set.range M.row) ∧ ∀ x, M'.mulVec x = 0 ↔ M.mulVec x = 0) :=
  (ref_sat H hm hn hA).mono fun _ ⟨M', h1, h2, h3⟩ => ⟨M', h1, h2, h3.rowSpace, h3.ker⟩

/-- C43: row_reduce_below returns an echelon matrix with the same row space and the same kernel. -/
theorem C43_row_reduce (H : EltRef U O rep) {A : TMat α} {M : Matrix (Fin m) (Fin n) F} (hm : 0 < m) (hn : 0 < n) (hA : MRep rep A M) :
    (TMat.row_reduce_below O A).Sat U (fun r => ∃ M' : Matrix (Fin m) (Fin n) F, MRep rep r M' ∧ (∃ rk p, IsEchelon M' rk p) ∧
      Submodule.span F (Set.range M'.row) = Submodule.span F (Set.range M.row) ∧ ∀ x, M'.mulVec x = 0 ↔ M.mulVec x = 0) :=
  (rr_sat H hm hn hA).mono fun _ ⟨M', h1, h2, h3⟩ => ⟨M', h1, h2, h3.rowSpace, h3.ker⟩

/-- C43: the rank. -/
theorem C43_rank (H : EltRef U O rep) {A : TMat α} {M : Matrix (Fin m) (Fin n) F} (hm : 0 < m) (hn : 0 < n) (hA : MRep rep A M) :
    (TMat.get_rank O A).Sat U (fun r => r = M.rank) := rank_sat H hm hn hA

/-- C44: the determinant; a non-square matrix throws. -/
theorem C44_det (H : EltRef U O rep) {A : TMat α} {M : Matrix (Fin n) (Fin n) F} (hn : 0 < n) (hA : MRep rep A M) :
    (TMat.det O A).Sat U (fun r => rep r M.det) := det_sat H hn hA

theorem C44_nonsquare (O : TOps α) {A : TMat α} (h : A.num_rows ≠ A.num_cols) : TMat.det O A = throw := by
  unfold TMat.det TMat.is_square; simp [h]

/-- C45: the kernel basis. -/
theorem C45_kernel (H : EltRef U O rep) (N : NegRef U O rep) {A : TMat α} {M : Matrix (Fin m) (Fin n) F} (hm : 0 < m) (hn : 0 < n) (hA : MRep rep A M)
    {zero one : α} (hz : rep zero 0) (ho : rep one 1) :
    (TMat.get_kernel_basis O A zero one).Sat U (fun r => match r with
      | none => ∀ x, M.mulVec x = 0 → x = 0
      | some B => ∃ d, d = n - M.rank ∧ 0 < d ∧ ∃ K : Matrix (Fin d) (Fin n) F, MRep rep B K ∧ LinearIndependent F (fun i => K i) ∧
          Submodule.span F (Set.range fun i => K i) = LinearMap.ker M.mulVecLin) := by
  refine (kernel_sat H N hm hn hA hz ho).mono fun r hr => ?_
  cases r with
  | none =>
    intro x hx
    have : x ∈ LinearMap.ker M.mulVecLin := by simpa using hx
    have hr : LinearMap.ker M.mulVecLin = ⊥ := hr
    rw [hr] at this; simpa using this
  | some B => exact hr

/-- C46: inverse. -/
theorem C46_inverse (H : EltRef U O rep) {A : TMat α} {M : Matrix (Fin n) (Fin n) F} (hn : 0 < n) (hA : MRep rep A M) :
    (TMat.inverse O A).Sat U (fun r => (r.1 = true ↔ IsUnit M) ∧
      (r.1 = true → ∃ (B : TMat α) (N : Matrix (Fin n) (Fin n) F), r.2 = some B ∧ MRep rep B N ∧ N * M = 1 ∧ M * N = 1)) := inverse_sat H hn hA

/-- C46: the block operations inverse uses: pasting onto a square matrix, and splitting. -/
theorem C46_paste_split_partial {k : ℕ} (O : TOps α) {A B : TMat α} {M : Matrix (Fin n) (Fin n) F} {N : Matrix (Fin n) (Fin k) F} (hn : 0 < n) (hk : 0 < k)
    (hA : MRep rep A M) (hB : MRep rep B N) :
    (TMat.paste O A B).Ok (fun r => MRep rep r (hcat M N) ∧ (TMat.split O r n).Ok (fun s => MRep rep s.1 M ∧ MRep rep s.2 N)) :=
  sat_false.mp ((paste_sat hn hA hB).mono fun _ hr => ⟨hr, sat_false.mp (split_sat hn hn hk hr)⟩)

/-- C47: solve_unique, for an output vector that is empty or has room for the solution. -/
theorem C47_solve_partial (H : EltRef U O rep) {A : TMat α} {M : Matrix (Fin m) (Fin n) F} (hm : 0 < m) (hn : 0 < n) (hA : MRep rep A M)
    {b : TVec α} {y : Fin m → F} (hb : VRep rep b y) {x : VObj α} (hx : ∀ s, x.elements = some s → n ≤ s.length) :
    (TMat.solve_unique O A x b).Sat U (fun r => (r.1 = true ↔ ∃! z, M.mulVec z = y) ∧
      (r.1 = true → ∃ v z, r.2.value = some v ∧ VRep rep v z ∧ M.mulVec z = y)) := solve_sat H hm hn hA hb hx

/-- C48: positive powers. -/
theorem C48_pos (H : EltRef U O rep) {A : TMat α} {M : Matrix (Fin n) (Fin n) F} (hn : 0 < n) (hA : MRep rep A M) {e : Int} (he : InInt e) (he1 : 1 ≤ e) :
    (TMat.exp O A e).Sat U (fun r => r.1 = true ∧ ∃ B, r.2 = some B ∧ MRep rep B (M ^ e.toNat)) := exp_pos_sat H hn hA he he1

/-- C48: negative powers of non-zero matrices: success exactly for invertible ones, with the power of the inverse.
(The exponent INT_MIN is excluded, see `C48_violated_int_min`.) -/
theorem C48_neg_partial (H : EltRef U O rep) {A : TMat α} {M : Matrix (Fin n) (Fin n) F} (hn : 0 < n) (hA : MRep rep A M) (hM : M ≠ 0) {e : Int} (he : InInt e)
    (he1 : e < 0) (hmin : e ≠ INT_MIN) :
    (TMat.exp O A e).Sat U (fun r => (r.1 = true ↔ IsUnit M) ∧ (r.1 = true → ∃ B, r.2 = some B ∧ MRep rep B (M⁻¹ ^ (-e).toNat))) :=
  exp_neg_sat H hn hA hM he he1 hmin

/-- C48: the zeroth power is the identity for invertible matrices only; it is refused for other matrices. -/
theorem C48_zero_partial (H : EltRef U O rep) {A : TMat α} {M : Matrix (Fin n) (Fin n) F} (hn : 0 < n) (hA : MRep rep A M) (hM : M ≠ 0) :
    (TMat.exp O A 0).Sat U (fun r => (r.1 = true ↔ IsUnit M) ∧ (r.1 = true → ∃ B, r.2 = some B ∧ MRep rep B (1 : Matrix (Fin n) (Fin n) F))) :=
  exp_zero_sat H hn hA hM

/-- C48: the zero matrix has no powers with exponent at most zero: an exception. -/
theorem C48_zeromat (H : EltRef False O rep) {A : TMat α} (hn : 0 < n) (hA : MRep rep A (0 : Matrix (Fin n) (Fin n) F)) {e : Int} (he : e ≤ 0) :
    TMat.exp O A e = throw := throws_false.mp (exp_zeromat H hn hA he)

end field

/-! ### the same for intmod_t with a prime modulus: always returns -/

section fp
variable {p : ℕ} [hp : Fact p.Prime] {m n : ℕ}

theorem C43_fp (hb : p ≤ 46341) {A : TMat IntMod} {M : Matrix (Fin m) (Fin n) (ZMod p)} (hm : 0 < m) (hn : 0 < n) (hA : FpMat p A M) :
    (TMat.row_echelon_form IntMod.cops.tops A).Ok (fun r => ∃ M' : Matrix (Fin m) (Fin n) (ZMod p), FpMat p r M' ∧ (∃ rk p, IsReduced M' rk p) ∧
      Submodule.span (ZMod p) (Set.range M'.row) = Submodule.span (ZMod p) (Set.range M.row) ∧ ∀ x, M'.mulVec x = 0 ↔ M.mulVec x = 0) ∧
    (TMat.get_rank IntMod.cops.tops A).Ok (fun r => r = M.rank) :=
  have H := (C42_inst_intmod hp.out.two_le hb).1
  ⟨sat_false.mp (C43_row_echelon H hm hn hA), sat_false.mp (C43_rank H hm hn hA)⟩

theorem C44_fp (hb : p ≤ 46341) {A : TMat IntMod} {M : Matrix (Fin n) (Fin n) (ZMod p)} (hn : 0 < n) (hA : FpMat p A M) :
    (TMat.det IntMod.cops.tops A).Ok (fun r => IntMod.Rep p r M.det) :=
  sat_false.mp (C44_det (C42_inst_intmod hp.out.two_le hb).1 hn hA)

theorem C45_fp (hb : p ≤ 46341) {A : TMat IntMod} {M : Matrix (Fin m) (Fin n) (ZMod p)} (hm : 0 < m) (hn : 0 < n) (hA : FpMat p A M)
    {zero one : IntMod} (hz : IntMod.Rep p zero 0) (ho : IntMod.Rep p one 1) :
    (TMat.get_kernel_basis IntMod.cops.tops A zero one).Ok (fun r => (r = none ↔ ∀ x, M.mulVec x = 0 → x = 0) ∧
      ∀ B, r = some B → ∃ d, d = n - M.rank ∧ ∃ K : Matrix (Fin d) (Fin n) (ZMod p), FpMat p B K ∧ LinearIndependent (ZMod p) (fun i => K i) ∧
          Submodule.span (ZMod p) (Set.range fun i => K i) = LinearMap.ker M.mulVecLin) := by
  obtain ⟨H, N⟩ := C42_inst_intmod hp.out.two_le hb
  refine sat_false.mp ((C45_kernel H N hm hn hA hz ho).mono fun r hr => ?_)
  cases r with
  | none => exact ⟨by simpa using hr, by simp⟩
  | some B =>
    obtain ⟨d, hrk, hd, K, h1, h2, h3⟩ := hr
    refine ⟨⟨by simp, fun h => ?_⟩, fun B' hB => ?_⟩
    · exfalso
      have hmem : K ⟨0, hd⟩ ∈ LinearMap.ker M.mulVecLin := by rw [← h3]; exact Submodule.subset_span ⟨_, rfl⟩
      exact h2.ne_zero ⟨0, hd⟩ (h _ (by simpa using hmem))
    · cases hB; exact ⟨d, hrk, K, h1, h2, h3⟩

theorem C46_fp (hb : p ≤ 46341) {A : TMat IntMod} {M : Matrix (Fin n) (Fin n) (ZMod p)} (hn : 0 < n) (hA : FpMat p A M) :
    (TMat.inverse IntMod.cops.tops A).Ok (fun r => (r.1 = true ↔ IsUnit M) ∧
      (r.1 = true → ∃ (B : TMat IntMod) (N : Matrix (Fin n) (Fin n) (ZMod p)), r.2 = some B ∧ FpMat p B N ∧ N * M = 1 ∧ M * N = 1)) :=
  sat_false.mp (C46_inverse (C42_inst_intmod hp.out.two_le hb).1 hn hA)

theorem C47_fp_partial (hb : p ≤ 46341) {A : TMat IntMod} {M : Matrix (Fin m) (Fin n) (ZMod p)} (hm : 0 < m) (hn : 0 < n) (hA : FpMat p A M)
    {b : TVec IntMod} {y : Fin m → ZMod p} (hb' : FpVec p b y) {x : VObj IntMod} (hx : ∀ s, x.elements = some s → n ≤ s.length) :
    (TMat.solve_unique IntMod.cops.tops A x b).Ok (fun r => (r.1 = true ↔ ∃! z, M.mulVec z = y) ∧
      (r.1 = true → ∃ v z, r.2.value = some v ∧ FpVec p v z ∧ M.mulVec z = y)) :=
  sat_false.mp (C47_solve_partial (C42_inst_intmod hp.out.two_le hb).1 hm hn hA hb' hx)

theorem C48_fp_pos (hb : p ≤ 46341) {A : TMat IntMod} {M : Matrix (Fin n) (Fin n) (ZMod p)} (hn : 0 < n) (hA : FpMat p A M) {e : Int} (he : InInt e) (he1 : 1 ≤ e) :
    (TMat.exp IntMod.cops.tops A e).Ok (fun r => r.1 = true ∧ ∃ B, r.2 = some B ∧ FpMat p B (M ^ e.toNat)) :=
  sat_false.mp (C48_pos (C42_inst_intmod hp.out.two_le hb).1 hn hA he he1)

end fp

/-! ### the same for matrices over F_2[t]/(f) with irreducible f -/

section f2n
variable {f : (ZMod 2)[X]} [hf : Fact (Irreducible f)] {m n : ℕ}

abbrev F2nMat (f : (ZMod 2)[X]) {m n : ℕ} (A : TMat F2Mod) (M : Matrix (Fin m) (Fin n) (AdjoinRoot f)) : Prop := MRep (F2Mod.Rep f) A M

theorem C43_f2n {A : TMat F2Mod} {M : Matrix (Fin m) (Fin n) (AdjoinRoot f)} (hm : 0 < m) (hn : 0 < n) (hA : F2nMat f A M) :
    (TMat.get_rank F2Mod.cops.tops A).Ok (fun r => r = M.rank) :=
  sat_false.mp (C43_rank (F := AdjoinRoot f) (C42_inst_f2_polymod hf.out.ne_zero).1 hm hn hA)

theorem C44_f2n {A : TMat F2Mod} {M : Matrix (Fin n) (Fin n) (AdjoinRoot f)} (hn : 0 < n) (hA : F2nMat f A M) :
    (TMat.det F2Mod.cops.tops A).Ok (fun r => F2Mod.Rep f r M.det) :=
  sat_false.mp (C44_det (F := AdjoinRoot f) (C42_inst_f2_polymod hf.out.ne_zero).1 hn hA)

theorem C46_f2n {A : TMat F2Mod} {M : Matrix (Fin n) (Fin n) (AdjoinRoot f)} (hn : 0 < n) (hA : F2nMat f A M) :
    (TMat.inverse F2Mod.cops.tops A).Ok (fun r => (r.1 = true ↔ IsUnit M) ∧
      (r.1 = true → ∃ (B : TMat F2Mod) (N : Matrix (Fin n) (Fin n) (AdjoinRoot f)), r.2 = some B ∧ F2nMat f B N ∧ N * M = 1 ∧ M * N = 1)) :=
  sat_false.mp (C46_inverse (F := AdjoinRoot f) (C42_inst_f2_polymod hf.out.ne_zero).1 hn hA)

end f2n

/-- C45 for fp_polymod_t matrices holds up to the undefined unary minus, -/
theorem C45_fpn_partial {p : ℕ} [hp : Fact p.Prime] (hb : p ≤ 46341) {f : (ZMod p)[X]} [hf : Fact (Irreducible f)] {m n : ℕ} {A : TMat (CMod IntMod)}
    {M : Matrix (Fin m) (Fin n) (AdjoinRoot f)} (hm : 0 < m) (hn : 0 < n) (hA : MRep (CMod.Rep (IntMod.Rep p) f) A M)
    {zero one : CMod IntMod} (hz : CMod.Rep (IntMod.Rep p) f zero 0) (ho : CMod.Rep (IntMod.Rep p) f one 1) :
    (TMat.get_kernel_basis FpMod.cops.tops A zero one).Sat True (fun r => match r with
      | none => ∀ x, M.mulVec x = 0 → x = 0
      | some B => ∃ d, d = n - M.rank ∧ 0 < d ∧ ∃ K : Matrix (Fin d) (Fin n) (AdjoinRoot f), MRep (CMod.Rep (IntMod.Rep p) f) B K ∧
          LinearIndependent (AdjoinRoot f) (fun i => K i) ∧
          Submodule.span (AdjoinRoot f) (Set.range fun i => K i) = LinearMap.ker M.mulVecLin) :=
  (C45_kernel (F := AdjoinRoot f) (FpMod.cops_ref hb hf.out.ne_zero).elt (FpMod.cops_ref hb hf.out.ne_zero).negRef hm hn hA hz ho).mono
    fun r hr => by cases r <;> exact hr

/-- t modulo t^2 + 1 over F_3 -/
def exT (n : Nat) : CMod IntMod := if n = 2 then ⟨⟨1, [⟨0, 3⟩, ⟨1, 3⟩]⟩, ⟨2, [⟨1, 3⟩, ⟨0, 3⟩, ⟨1, 3⟩]⟩⟩ else ⟨⟨0, [⟨(n : Int), 3⟩]⟩, ⟨2, [⟨1, 3⟩, ⟨0, 3⟩, ⟨1, 3⟩]⟩⟩

/-- which really happens: the kernel of the matrix [1 t] over F_9. -/
theorem C45_violated : TMat.get_kernel_basis FpMod.cops.tops ⟨1, 2, [[exT 1, exT 2]]⟩ (exT 0) (exT 1) = ub := by decide +kernel

example : TMat.row_echelon_form IntMod.cops.tops exS =
    ok ⟨3, 4, [[⟨0, 7⟩, ⟨1, 7⟩, ⟨2, 7⟩, ⟨0, 7⟩], [⟨0, 7⟩, ⟨0, 7⟩, ⟨0, 7⟩, ⟨1, 7⟩], [⟨0, 7⟩, ⟨0, 7⟩, ⟨0, 7⟩, ⟨0, 7⟩]]⟩ := by decide +kernel
example : TMat.get_rank IntMod.cops.tops exS = ok 2 := by decide +kernel
example : TMat.det IntMod.cops.tops exA = ok ⟨5, 7⟩ := by decide +kernel
example : TMat.det IntMod.cops.tops exB = ok ⟨2, 7⟩ := by decide +kernel
example : TMat.get_kernel_basis IntMod.cops.tops exS ⟨0, 7⟩ ⟨1, 7⟩ =
    ok (some ⟨2, 4, [[⟨1, 7⟩, ⟨0, 7⟩, ⟨0, 7⟩, ⟨0, 7⟩], [⟨0, 7⟩, ⟨5, 7⟩, ⟨1, 7⟩, ⟨0, 7⟩]]⟩) := by decide +kernel
example : TMat.get_kernel_basis IntMod.cops.tops exA ⟨0, 7⟩ ⟨1, 7⟩ = ok none := by decide +kernel
example : TMat.inverse IntMod.cops.tops exB = ok (true, some ⟨2, 2, [[⟨3, 7⟩, ⟨3, 7⟩], [⟨1, 7⟩, ⟨0, 7⟩]]⟩) := by decide +kernel
example : TMat.solve_unique IntMod.cops.tops exA VObj.empty exv = ok (true, ⟨some [⟨6, 7⟩, ⟨5, 7⟩], 2⟩) := by decide +kernel
example : TMat.exp IntMod.cops.tops exA 5 = ok (true, some ⟨2, 2, [[⟨5, 7⟩, ⟨4, 7⟩], [⟨6, 7⟩, ⟨4, 7⟩]]⟩) := by decide +kernel
example : ∃ B, TMat.exp IntMod.cops.tops exA (-1) = ok (true, some B) ∧ TMat.mul IntMod.cops.tops exA B = ok ⟨2, 2, [[⟨1, 7⟩, ⟨0, 7⟩], [⟨0, 7⟩, ⟨1, 7⟩]]⟩ :=
  ⟨⟨2, 2, [[⟨5, 7⟩, ⟨1, 7⟩], [⟨5, 7⟩, ⟨3, 7⟩]]⟩, by decide +kernel, by decide +kernel⟩

/-- Pasting onto a non-square matrix goes wrong (`num_rows` is used as the column offset): a 2 by 1 matrix pasted with
a 2 by 1 matrix throws, and a 1 by 2 one loses its second column. -/
theorem C46_violated_paste : TMat.paste IntMod.cops.tops ⟨2, 1, [[⟨1, 7⟩], [⟨2, 7⟩]]⟩ ⟨2, 1, [[⟨3, 7⟩], [⟨4, 7⟩]]⟩ = throw ∧
    TMat.paste IntMod.cops.tops ⟨1, 2, [[⟨1, 7⟩, ⟨2, 7⟩]]⟩ ⟨1, 1, [[⟨3, 7⟩]]⟩ = ok ⟨1, 3, [[⟨1, 7⟩, ⟨3, 7⟩, IntMod.default]]⟩ := by decide +kernel

/-- C47 fails when the caller's vector already holds fewer elements: the solution is written past its end. -/
theorem C47_violated : TMat.solve_unique IntMod.cops.tops exA (VObj.ofList [⟨0, 7⟩]) exv = ub := by decide +kernel

/-- C48 fails at INT_MIN: `-power` overflows. -/
theorem C48_violated_int_min : TMat.exp IntMod.cops.tops exA INT_MIN = ub := by decide +kernel

/-- C48 fails at exponent zero for a singular matrix. -/
theorem C48_violated_zero : TMat.exp IntMod.cops.tops ⟨2, 2, [[⟨1, 7⟩, ⟨0, 7⟩], [⟨0, 7⟩, ⟨0, 7⟩]]⟩ 0 = ok (false, none) := by decide +kernel

/-! ### C49: assignment -/

/-- C49, the part that holds: assigning into a null vector, or into one whose array has at least as many slots as the
source has elements. -/
theorem C49_tvector_partial {α : Type} (d : α) {x : VObj α} (v : List α) (hx : ∀ s, x.elements = some s → v.length ≤ s.length) :
    (VObj.assign d x (VObj.ofList v)).Ok (fun r => r.value = some v) := by
  obtain ⟨s, h1, h2, h3⟩ := assign_fits (d := d) hx
  refine ⟨_, h1, ?_⟩
  simp [VObj.value, h2, h3]

/-- C49 fails in every other case: the assignment writes past the end of the old array. -/
theorem C49_tvector_violated {α : Type} (d : α) {x : VObj α} {s : List α} (v : List α) (hx : x.elements = some s) (h : s.length < v.length) :
    VObj.assign d x (VObj.ofList v) = ub := by
  unfold VObj.assign VObj.ofList
  simp only [lt_irrefl, if_false, hx]
  have key : ∀ k i (t : List α), t.length = s.length → i + k = v.length → i ≤ s.length →
      loopUp (fun i s => store s i (VObj.rdElem ⟨some v, v.length⟩ i)) k i t = ub := by
    intro k
    induction k with
    | zero => intro i t _ h1 h2; omega
    | succ k ih =>
      intro i t ht h1 h2
      unfold loopUp
      have hrd : VObj.rdElem ⟨some v, v.length⟩ i = ok (v[i]'(by omega)) := by
        unfold VObj.rdElem; simp only; exact rd_ok (by omega)
      unfold store
      rw [hrd]; simp only [ok_bind]
      by_cases hi : i < t.length
      · rw [wr_ok hi]; simp only [ok_bind]
        exact ih (i + 1) _ (by simpa using ht) (by omega) (by omega)
      · unfold wr; rw [if_neg hi]; rfl
  unfold forUp
  rw [key (v.length - 0) 0 s rfl (by omega) (by omega)]; rfl

example : VObj.assign (⟨0, 1⟩ : IntMod) (VObj.ofList [⟨1, 7⟩, ⟨2, 7⟩, ⟨3, 7⟩]) (VObj.ofList exv) = ok ⟨some [⟨2, 7⟩, ⟨3, 7⟩, ⟨3, 7⟩], 2⟩ := by decide +kernel
example : VObj.assign (⟨0, 1⟩ : IntMod) (VObj.ofList [⟨1, 7⟩]) (VObj.ofList exv) = ub := by decide +kernel

end TM
end Spffl.Props
