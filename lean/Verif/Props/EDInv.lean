/-
Properties C83 (row echelon form and inverse of polynomial matrices) and C84 (bits and matrices of bits).

`MRep F2P.ERep A M`, `MRep (Fp p) A M`, `MRep (F2n m) A M` say that the matrix object `A` has the entries of `M`;
`F2Mat A M` likewise for matrices of bits.
-/
import Verif.Proof.EDInv
import Verif.Props.LinAlg

namespace Spffl.Props
open Res Polynomial LinAlg CP
namespace LA

/-! ### C83 -/

/-- what the row echelon form of a matrix over a domain is: echelon shape, every pivot column zero above its pivot, the
entries of a row without a common factor, the same kernel and rank over the fraction field -/
structure EchForm {R : Type} [CommRing R] [IsDomain R] {m n : ℕ} (M M' : Matrix (Fin m) (Fin n) R) : Prop where
  shape : ∃ (r : ℕ) (p : ℕ → ℕ), r ≤ m ∧ (∀ i j, i < j → j < r → p i < p j) ∧ (∀ i, i < r → p i < n) ∧
    (∀ (i : Fin m), r ≤ (i : ℕ) → M' i = 0) ∧ (∀ (i : Fin m) (j : Fin n), (i : ℕ) < r → (j : ℕ) = p i → M' i j ≠ 0) ∧
    (∀ (i : Fin m) (j : Fin n), (i : ℕ) < r → (j : ℕ) < p i → M' i j = 0) ∧
    (∀ (i : Fin m) (j : Fin n) q, (i : ℕ) < q → q < r → (j : ℕ) = p q → M' i j = 0)
  prim : ∀ (i : Fin m), M' i ≠ 0 → ∀ d, (∀ j, d ∣ M' i j) → IsUnit d
  ker : ∀ x : Fin n → R, M'.mulVec x = 0 ↔ M.mulVec x = 0
  rank : (M'.map (algebraMap R (FractionRing R))).rank = (M.map (algebraMap R (FractionRing R))).rank

theorem echForm {U : Prop} {α R : Type} [CommRing R] [IsDomain R] {O : EDOps α} {rep wrep : α → R → Prop} {m n : ℕ} (H : EDRef U O rep wrep)
    {A : TMat α} {M : Matrix (Fin m) (Fin n) R} (hm : 0 < m) (hn : 0 < n) (hA : MRep rep A M) (hM : M ≠ 0) :
    (TMat.ed_row_echelon_form O A).Sat U fun B => ∃ M', MRep rep B M' ∧ EchForm M M' := by
  refine (ed_row_echelon_sat (FractionRing R) H hm hn hA hM).mono fun B ⟨M', h1, h2, r, p, h3⟩ => ⟨M', h1, ⟨r, p, h3.le, h3.mono, h3.lt, h3.zero,
    h3.lead, h3.left, h3.above⟩, fun i hi d hd => ?_, fun x => ?_, h2.rank⟩
  · by_cases hr : (i : ℕ) < r
    · exact (h3.prim i hr).resolve_left hi d hd
    · exact absurd (h3.zero i (by omega)) hi
  · have hinj := IsFractionRing.injective R (FractionRing R)
    have key : ∀ N : Matrix (Fin m) (Fin n) R, (N.map (algebraMap R (FractionRing R))).mulVec (fun j => algebraMap R (FractionRing R) (x j)) = 0 ↔
        N.mulVec x = 0 := by
      intro N
      rw [funext_iff, funext_iff]
      refine forall_congr' fun i => ?_
      have : (N.map (algebraMap R (FractionRing R))).mulVec (fun j => algebraMap R (FractionRing R) (x j)) i =
          algebraMap R (FractionRing R) (N.mulVec x i) := by
        simp [Matrix.mulVec, dotProduct]
      rw [this]
      simp
    rw [← key, ← key]
    exact h2.ker _

/-- C83: row echelon form over F2[x]. -/
theorem C83_echelon_f2 {m n : ℕ} (hm : 0 < m) (hn : 0 < n) {A : TMat F2P} {M : Matrix (Fin m) (Fin n) (ZMod 2)[X]}
    (hA : MRep F2P.ERep A M) (hM : M ≠ 0) : (TMat.ed_row_echelon_form F2P.edops A).Ok fun B => ∃ M', MRep F2P.ERep B M' ∧ EchForm M M' :=
  sat_false.mp (echForm F2P.edref hm hn hA hM)

/-- C83: row echelon form over Fp[x]. -/
theorem C83_echelon_fp {p : ℕ} [hp : Fact p.Prime] (hb : p ≤ 46341) (d : IntMod) {m n : ℕ} (hm : 0 < m) (hn : 0 < n) {A : TMat (CPoly IntMod)}
    {M : Matrix (Fin m) (Fin n) (ZMod p)[X]} (hA : MRep (Fp p) A M) (hM : M ≠ 0) :
    (TMat.ed_row_echelon_form (CPoly.edops IntMod.cops d) A).Ok fun B => ∃ M', MRep (Fp p) B M' ∧ EchForm M M' :=
  sat_false.mp (echForm (CPoly.edref (IntMod.cops_ref hp.out.two_le hb) d) hm hn hA hM)

/-- C83: row echelon form over F2^n[y]. -/
theorem C83_echelon_f2n {f : (ZMod 2)[X]} [hf : Fact (Irreducible f)] (d : F2Mod) {m n : ℕ} (hm : 0 < m) (hn : 0 < n) {A : TMat (CPoly F2Mod)}
    {M : Matrix (Fin m) (Fin n) (AdjoinRoot f)[X]} (hA : MRep (F2n f) A M) (hM : M ≠ 0) :
    (TMat.ed_row_echelon_form (CPoly.edops F2Mod.cops d) A).Ok fun B => ∃ M', MRep (F2n f) B M' ∧ EchForm M M' :=
  sat_false.mp (echForm (CPoly.edref (F2Mod.cops_ref hf.out.ne_zero) d) hm hn hA hM)

/-- C83: the inverse over F2[x]: success exactly for matrices invertible over F2[x], with the inverse. -/
theorem C83_inverse_f2 {n : ℕ} (hn : 0 < n) {A : TMat F2P} {M : Matrix (Fin n) (Fin n) (ZMod 2)[X]} (hA : MRep F2P.ERep A M) :
    (TMat.ed_inverse F2P.edops A).Ok fun r => (r.1 = true ↔ IsUnit M) ∧
      (r.1 = true → ∃ B N, r.2 = some B ∧ MRep F2P.ERep B N ∧ N * M = 1 ∧ M * N = 1) := by
  refine sat_false.mp ((ed_inverse_sat F2P.edref hn hA).mono fun r ⟨h1, h2⟩ => ⟨⟨fun h => ?_, fun h => h2 h fun u hu => ?_⟩, h1⟩)
  · obtain ⟨_, N, -, -, h3, h4⟩ := h1 h
    exact ⟨⟨M, N, h4, h3⟩, rfl⟩
  · obtain ⟨c, hc, rfl⟩ := Polynomial.isUnit_iff.mp hu
    have : c = 1 := by have h := hc.ne_zero; clear hu hc; revert c; decide
    rw [this, map_one]

/-- C83 over Fp[x]: an inverse that is returned is right.  Missing: invertible matrices that are refused (`C83_violated_fp`). -/
theorem C83_inverse_fp_partial {p : ℕ} [hp : Fact p.Prime] (hb : p ≤ 46341) (d : IntMod) {n : ℕ} (hn : 0 < n) {A : TMat (CPoly IntMod)}
    {M : Matrix (Fin n) (Fin n) (ZMod p)[X]} (hA : MRep (Fp p) A M) :
    (TMat.ed_inverse (CPoly.edops IntMod.cops d) A).Ok fun r => r.1 = true → ∃ B N, r.2 = some B ∧ MRep (Fp p) B N ∧ N * M = 1 ∧ M * N = 1 :=
  sat_false.mp ((ed_inverse_sat (CPoly.edref (IntMod.cops_ref hp.out.two_le hb) d) hn hA).mono fun _ h => h.1)

/-- C83 over F2^n[y]: an inverse that is returned is right. -/
theorem C83_inverse_f2n_partial {f : (ZMod 2)[X]} [hf : Fact (Irreducible f)] (d : F2Mod) {n : ℕ} (hn : 0 < n) {A : TMat (CPoly F2Mod)}
    {M : Matrix (Fin n) (Fin n) (AdjoinRoot f)[X]} (hA : MRep (F2n f) A M) :
    (TMat.ed_inverse (CPoly.edops F2Mod.cops d) A).Ok fun r => r.1 = true → ∃ B N, r.2 = some B ∧ MRep (F2n f) B N ∧ N * M = 1 ∧ M * N = 1 :=
  sat_false.mp ((ed_inverse_sat (CPoly.edref (F2Mod.cops_ref hf.out.ne_zero) d) hn hA).mono fun _ h => h.1)

/-- C83 fails over F5[x]: [2] has the inverse [3], but the code says it has none: the left half is a unit, not 1. -/
theorem C83_violated_fp : TMat.ed_inverse (CPoly.edops IntMod.cops ⟨0, 1⟩) ⟨1, 1, [[⟨0, [⟨2, 5⟩]⟩]]⟩ = ok (false, some ⟨1, 1, [[⟨0, [⟨1, 5⟩]⟩]]⟩) := by
  decide +kernel

/-- C83: a matrix that is not square is rejected. -/
theorem C83_nonsquare {α : Type} (O : EDOps α) {A : TMat α} {a b : α} (ha : TMat.get A 0 0 = ok a) (hb : O.sub a a = ok b)
    (h : A.num_rows ≠ A.num_cols) : TMat.ed_inverse O A = throw := by
  unfold TMat.ed_inverse TMat.is_square
  rw [ha, ok_bind, hb, ok_bind, beq_eq_false_iff_ne.mpr h]; rfl

-- [[x, x+1], [1, 1]] over F2[x] has determinant 1 and inverse [[1, x+1], [1, x]]; [x] has none
example : TMat.ed_inverse F2P.edops ⟨2, 2, [[[2#64], [3#64]], [[1#64], [1#64]]]⟩ = ok (true, some ⟨2, 2, [[[1#64], [3#64]], [[1#64], [2#64]]]⟩) := by
  decide +kernel
example : (match TMat.ed_inverse F2P.edops ⟨1, 1, [[[2#64]]]⟩ with | ok r => r.1 == false | _ => false) = true := by decide +kernel
example : TMat.ed_row_echelon_form F2P.edops ⟨2, 2, [[[2#64], [4#64]], [[6#64], [2#64]]]⟩ = ok ⟨2, 2, [[[1#64], [0#64]], [[0#64], [1#64]]]⟩ := by
  decide +kernel
example : TMat.ed_inverse F2P.edops ⟨1, 2, [[[2#64], [1#64]]]⟩ = throw := by decide +kernel

/-! ### C84 -/

/-- C84: the constructor from an int takes it modulo 2. -/
theorem C84_of_int (v : Int) : BitT.Rep (BitT.ofInt v) (v : ZMod 2) := BitT.rep_ofInt v

/-- C84: the operators are those of the field with two elements; division by zero throws. -/
theorem C84_ops {a b : BitT} {x y : ZMod 2} (ha : BitT.Rep a x) (hb : BitT.Rep b y) :
    (BitT.tops.add a b).Ok (BitT.Rep · (x + y)) ∧ (BitT.tops.sub a b).Ok (BitT.Rep · (x - y)) ∧ (BitT.tops.mul a b).Ok (BitT.Rep · (x * y)) ∧
    (BitT.tops.neg a).Ok (BitT.Rep · (-x)) ∧ (y ≠ 0 → (BitT.tops.div a b).Ok (BitT.Rep · (x / y)) ∧ (BitT.mod a b).Ok (BitT.Rep · 0)) ∧
    (y = 0 → BitT.tops.div a b = throw ∧ BitT.mod a b = throw) ∧ (BitT.tops.eq a b).Ok (· = true ↔ x = y) ∧
    (BitT.tops.lt a b).Ok (· = true ↔ x.val < y.val) := by
  unfold BitT.Rep at *
  simp only [BitT.tops, BitT.mod, Ok_ok]
  obtain ⟨a⟩ := a
  obtain ⟨b⟩ := b
  simp only at ha hb
  subst ha hb
  have hx : x = 0 ∨ x = 1 := by revert x; decide
  have hy : y = 0 ∨ y = 1 := by revert y; decide
  rcases hx with rfl | rfl <;> rcases hy with rfl | rfl <;>
    refine ⟨by decide, by decide, by decide, by decide, fun h => ?_, fun h => ?_, by decide, by decide⟩ <;>
    first
    | exact absurd h (by decide)
    | (simp [BitT.ofInt]; done)
    | exact ⟨rfl, rfl⟩

/-- C84: powers.  Missing: powers of 0 with exponent at most 0 (`C84_violated_exp`). -/
theorem C84_exp_partial {a : BitT} {x : ZMod 2} (ha : BitT.Rep a x) {e : Int} (he : x ≠ 0 ∨ 0 < e) : (BitT.exp a e).Ok (BitT.Rep · (x ^ e)) := by
  unfold BitT.exp
  rw [Ok_ok]
  rcases he with h | h
  · have : x = 1 := by clear ha; revert x; decide
    subst this; simpa using ha
  · obtain ⟨k, rfl⟩ := Int.eq_ofNat_of_zero_le h.le
    have : x ^ (k : Int) = x := by
      have hk : k ≠ 0 := by omega
      rw [zpow_natCast]
      clear ha
      have : x = 0 ∨ x = 1 := by revert x; decide
      rcases this with rfl | rfl <;> simp [hk]
    rw [this]; exact ha

/-- C84 fails: the zeroth power of 0 is 0 (every other class of the library has 1 here), and its inverse does not throw. -/
theorem C84_violated_exp : BitT.exp (BitT.ofInt 0) 0 = ok (BitT.ofInt 0) ∧ BitT.exp (BitT.ofInt 0) (-1) = ok (BitT.ofInt 0) := by decide

/-- C84: assigning 0 or 1.  Missing: other integers (`C84_violated_assign`). -/
theorem C84_assign_partial {v : Int} (hv : v = 0 ∨ v = 1) : BitT.Rep (BitT.assignInt v) (v : ZMod 2) := by
  unfold BitT.Rep
  rcases hv with rfl | rfl <;> decide

/-- C84 fails: assigning any integer whose low byte is neither 0 nor 1 leaves an object that is no element of the field,
different from both. -/
theorem C84_violated_assign {v : Int} (h0 : v % 256 ≠ 0) (h1 : v % 256 ≠ 1) :
    BitT.tops.eq (BitT.assignInt v) (BitT.ofInt 0) = ok false ∧ BitT.tops.eq (BitT.assignInt v) (BitT.ofInt 1) = ok false := by
  have key : ∀ k : ℕ, k < 256 → v % 256 ≠ k → BitVec.ofInt 8 v ≠ BitVec.ofNat 8 k := by
    intro k hk hne h
    apply hne
    have := congrArg BitVec.toNat h
    rw [BitVec.toNat_ofInt, BitVec.toNat_ofNat, Nat.mod_eq_of_lt (by omega : k < 2 ^ 8)] at this
    omega
  constructor
  · show ok _ = _
    rw [beq_eq_false_iff_ne.mpr]
    exact key 0 (by omega) h0
  · show ok _ = _
    rw [beq_eq_false_iff_ne.mpr]
    exact key 1 (by omega) h1

theorem bit_neg : NegRef False BitT.tops BitT.Rep where
  neg := by
    intro a x ha
    have : -x = x := by clear ha; revert x; decide
    show BitT.Rep a (-x)
    rw [this]; exact ha

/-- C84: arithmetic of matrices of bits. -/
theorem C84_matrix {m k n : ℕ} {A A' B : TMat BitT} {M M' : Matrix (Fin m) (Fin k) (ZMod 2)} {N : Matrix (Fin k) (Fin n) (ZMod 2)}
    (hm : 0 < m) (hk : 0 < k) (hn : 0 < n) (hA : F2Mat A M) (hA' : F2Mat A' M') (hB : F2Mat B N) :
    (TMat.add BitT.tops A A').Ok (F2Mat · (M + M')) ∧ (TMat.sub BitT.tops A A').Ok (F2Mat · (M - M')) ∧
    (TMat.mul BitT.tops A B).Ok (F2Mat · (M * N)) ∧ (TMat.eq BitT.tops A A').Ok (· = true ↔ M = M') :=
  have H := BitT.eltRef
  ⟨sat_false.mp (add_sat' H hm hk hA hA'), sat_false.mp (sub_sat' H hm hk hA hA'), sat_false.mp (mul_sat' H hm hn hk hA hB),
    sat_false.mp (meq_sat H hA hA')⟩

/-- C84: rank, row echelon form and kernel basis of matrices of bits. -/
theorem C84_rank_kernel {m n : ℕ} (hm : 0 < m) (hn : 0 < n) {A : TMat BitT} {M : Matrix (Fin m) (Fin n) (ZMod 2)} (hA : F2Mat A M) :
    (TMat.get_rank BitT.tops A).Ok (· = M.rank) ∧
    (TMat.row_echelon_form BitT.tops A).Ok (fun r => ∃ M' : Matrix (Fin m) (Fin n) (ZMod 2), F2Mat r M' ∧ (∃ rk p, IsReduced M' rk p) ∧
      Submodule.span (ZMod 2) (Set.range M'.row) = Submodule.span (ZMod 2) (Set.range M.row) ∧ ∀ x, M'.mulVec x = 0 ↔ M.mulVec x = 0) ∧
    (TMat.get_kernel_basis BitT.tops A (BitT.ofInt 0) (BitT.ofInt 1)).Ok (fun r => match r with
      | none => ∀ x, M.mulVec x = 0 → x = 0
      | some B => ∃ d, d = n - M.rank ∧ 0 < d ∧ ∃ K : Matrix (Fin d) (Fin n) (ZMod 2), F2Mat B K ∧ LinearIndependent (ZMod 2) (fun i => K i) ∧
          Submodule.span (ZMod 2) (Set.range fun i => K i) = LinearMap.ker M.mulVecLin) :=
  ⟨sat_false.mp (TM.C43_rank BitT.eltRef hm hn hA), sat_false.mp (TM.C43_row_echelon BitT.eltRef hm hn hA),
    sat_false.mp ((TM.C45_kernel BitT.eltRef bit_neg hm hn hA (by simpa using BitT.rep_ofInt 0) (by simpa using BitT.rep_ofInt 1)).mono
      fun r h => by cases r <;> exact h)⟩

/-- C84: determinant and inverse of matrices of bits. -/
theorem C84_det_inverse {n : ℕ} (hn : 0 < n) {A : TMat BitT} {M : Matrix (Fin n) (Fin n) (ZMod 2)} (hA : F2Mat A M) :
    (TMat.det BitT.tops A).Ok (BitT.Rep · M.det) ∧
    (TMat.inverse BitT.tops A).Ok (fun r => (r.1 = true ↔ IsUnit M) ∧
      (r.1 = true → ∃ B N, r.2 = some B ∧ F2Mat B N ∧ N * M = 1 ∧ M * N = 1)) :=
  ⟨sat_false.mp (TM.C44_det BitT.eltRef hn hA), sat_false.mp (TM.C46_inverse BitT.eltRef hn hA)⟩

-- the matrix 1 1 / 0 1 is its own inverse and has determinant 1
example : TMat.inverse BitT.tops ⟨2, 2, [[⟨1⟩, ⟨1⟩], [⟨0⟩, ⟨1⟩]]⟩ = ok (true, some ⟨2, 2, [[⟨1⟩, ⟨1⟩], [⟨0⟩, ⟨1⟩]]⟩) := by decide +kernel
example : TMat.det BitT.tops ⟨2, 2, [[⟨1⟩, ⟨1⟩], [⟨0⟩, ⟨1⟩]]⟩ = ok ⟨1⟩ := by decide +kernel
example : TMat.get_rank BitT.tops ⟨2, 2, [[⟨1⟩, ⟨1⟩], [⟨1⟩, ⟨1⟩]]⟩ = ok 1 := by decide +kernel
example : TMat.get_kernel_basis BitT.tops ⟨2, 2, [[⟨1⟩, ⟨1⟩], [⟨1⟩, ⟨1⟩]]⟩ (BitT.ofInt 0) (BitT.ofInt 1) = ok (some ⟨1, 2, [[⟨1⟩, ⟨1⟩]]⟩) := by
  decide +kernel
example : BitT.ofInt (-3) = ⟨1⟩ ∧ BitT.exp ⟨1⟩ (-5) = ok ⟨1⟩ ∧ BitT.assignInt 2 = ⟨2⟩ := by decide

end LA
end Spffl.Props
