/-
Property C95: the diagonalizability test for matrices over the finite fields F_{2^n}.

`F2nMat m A M` says that the object `A` denotes the matrix `M` over F2[x]/(m) (Props/TMatrix.lean).  `Diagonalizable`
is spelled out here: there are an invertible matrix `P` and a list `d` with M P = P diag(d).  `tm` stands for the
uninitialized masks met on the way (Props/F2Factor.lean), `qs` and `vs` for the two calls of `qsort` (Props/Units.lean).
-/
import Verif.Proof.Diag2

namespace Spffl.Props
open Res Polynomial CPoly CP F2P TM
namespace LA

/-- the test's meaning: an invertible matrix whose columns are eigenvectors -/
def HasEigenbasis {E : Type} [Field E] {n : ℕ} (M : Matrix (Fin n) (Fin n) E) : Prop :=
  ∃ (P : Matrix (Fin n) (Fin n) E) (d : Fin n → E), IsUnit P ∧ M * P = P * Matrix.diagonal d

variable {m : (ZMod 2)[X]} [hm : Fact (Irreducible m)] {n : ℕ} {qs : List (F2Mod × ℕ) → List (F2Mod × ℕ)} {vs : List F2Mod → List F2Mod}

/-- C95: for every square matrix over F2[x]/(m) whose characteristic polynomial splits in some field F2[x]/(m') with
deg m' at most 30, the call returns normally.  The modulus handed back is irreducible and there is an embedding of
F2[x]/(m) into its field over which the characteristic polynomial splits; its degree divides that of every such
field, and it is `m` itself if the polynomial splits already.  The eigenvalues handed back are exactly the roots, each
once, in increasing order.  The answer is `true` exactly when the matrix is diagonalizable over that field, and this is
so exactly when it is diagonalizable over any extension field whatsoever.
Missing: splitting fields of degree above 30 (`C95_violated_31`, `C95_violated_32`). -/
theorem C95_partial {V : Prop} {tm : TrimMask} (H : ∀ k, (tm k).Sat V fun _ => True) (hqs : IsQsort F2Mod.lt qs) (hvs : IsSort F2Mod.lt vs)
    {A : TMat F2Mod} {M : Matrix (Fin n) (Fin n) (AdjoinRoot m)} (hn : 0 < n) (hmax : (n : Int) ≤ INT_MAX) (hA : F2nMat m A M)
    {m' : (ZMod 2)[X]} [Fact (Irreducible m')] (hm' : m'.natDegree ≤ 30) (χ : AdjoinRoot m →+* AdjoinRoot m') (hs : (M.charpoly.map χ).Splits) :
    (Diag.is_diagonalizable tm qs vs A).Sat V fun r => ∃ (μ : (ZMod 2)[X]) (_ : Fact (Irreducible μ)) (φ : AdjoinRoot m →+* AdjoinRoot μ),
      Canon r.2.1 ∧ toPoly r.2.1 = μ ∧ (M.charpoly.map φ).Splits ∧
      (∀ (ν : (ZMod 2)[X]) (_ : Fact (Irreducible ν)) (ψ : AdjoinRoot m →+* AdjoinRoot ν), (M.charpoly.map ψ).Splits → μ.natDegree ∣ ν.natDegree) ∧
      (M.charpoly.Splits → μ = m) ∧
      (∃ ys : List (AdjoinRoot μ), List.Forall₂ (F2Mod.Rep μ) r.2.2 ys ∧ ys.Nodup ∧ ∀ y, y ∈ ys ↔ (M.charpoly.map φ).IsRoot y) ∧
      r.2.2.Pairwise (fun a b => nval (toPoly a.residue) < nval (toPoly b.residue)) ∧
      (r.1 = true ↔ HasEigenbasis (M.map φ)) ∧
      (r.1 = true ↔ ∃ (E : Type) (_ : Field E) (ψ : AdjoinRoot m →+* E), HasEigenbasis (M.map ψ)) := by
  have := finite_adjoin m
  refine (Diag.is_diagonalizable_sat H hqs hvs hn hmax hA hm' χ hs).mono ?_
  rintro r ⟨μ, hμ, φ, h1, h2, h3, h4, h5, ⟨ys, k1, k2, k3⟩, h7⟩
  refine ⟨μ, hμ, φ, h1, h2, h3, h4, h5, ⟨ys, k1, k2.imp (by rintro x y h rfl; omega), k3⟩, ?_, h7, h7.trans ⟨fun h => ⟨_, _, φ, h⟩, ?_⟩⟩
  · generalize r.2.2 = l at k1
    clear k3
    induction k1 with
    | nil => exact List.Pairwise.nil
    | cons hx hl ih =>
      rw [List.pairwise_cons] at k2 ⊢
      refine ⟨fun b hb => ?_, ih k2.2⟩
      obtain ⟨i, hi, rfl⟩ := List.getElem_of_mem hb
      have hi' := hl.length_eq ▸ hi
      have := k2.1 _ (List.getElem_mem hi')
      have h' := F2nP.kv_rep (hl.get hi hi')
      rw [List.get_eq_getElem, List.get_eq_getElem] at h'
      rw [F2nP.kv_rep hx, h'] at this
      exact this
  · rintro ⟨E, _, ψ, h⟩
    exact Diag.diag_ext φ ψ h3 h

/-- the same when the masks exist: the call ends and returns -/
theorem C95_total_partial (W : ℕ → BitVec 64) (hqs : IsQsort F2Mod.lt qs) (hvs : IsSort F2Mod.lt vs)
    {A : TMat F2Mod} {M : Matrix (Fin n) (Fin n) (AdjoinRoot m)} (hn : 0 < n) (hmax : (n : Int) ≤ INT_MAX) (hA : F2nMat m A M)
    {m' : (ZMod 2)[X]} [Fact (Irreducible m')] (hm' : m'.natDegree ≤ 30) (χ : AdjoinRoot m →+* AdjoinRoot m') (hs : (M.charpoly.map χ).Splits) :
    ∃ b ext evs, Diag.is_diagonalizable (fun k => ok (W k)) qs vs A = ok (b, ext, evs) ∧
      (b = true ↔ ∃ (E : Type) (_ : Field E) (ψ : AdjoinRoot m →+* E), HasEigenbasis (M.map ψ)) := by
  obtain ⟨⟨b, ext, evs⟩, h1, -, -, -, -, -, -, -, -, -, -, -, h2⟩ := sat_false.mp (C95_partial (some_mask W) hqs hvs hn hmax hA hm' χ hs)
  exact ⟨b, ext, evs, h1, h2⟩

/-- C95: a matrix that is not square is refused. -/
theorem C95_nonsquare (tm : TrimMask) {A : TMat F2Mod} (h : A.num_rows ≠ A.num_cols) : Diag.is_diagonalizable tm qs vs A = throw := by
  unfold Diag.is_diagonalizable
  rw [C80_nonsquare.2 A h, throw_bind]

def mtx (m : BitVec 64) (l : List (List (BitVec 64))) : TMat F2Mod := ⟨l.length, (l.headD []).length, l.map fun r => r.map fun w => ⟨[w], [m]⟩⟩
def diagTest (m : BitVec 64) (l : List (List (BitVec 64))) := Diag.is_diagonalizable (fun _ => ok 5#64) (isort F2Mod.lt) vsort (mtx m l)

/-- [[0,1],[1,1]] over F2: the eigenvalues x and x+1 live in F2[x]/(x^2+x+1). -/
example : diagTest 0x3 [[0, 1], [1, 1]] = ok (true, [7], [⟨[2], [7]⟩, ⟨[3], [7]⟩]) := by decide +kernel
/-- [[1,1],[0,1]] has the eigenvalue 1 only, with nullity 1. -/
example : diagTest 0x3 [[1, 1], [0, 1]] = ok (false, [3], [⟨[1], [3]⟩]) := by decide +kernel
/-- [[0,x],[1,1]] over F4: t^2+t+x needs F16. -/
example : diagTest 0x7 [[0, 2], [1, 1]] = ok (true, [0x13], [⟨[2], [0x13]⟩, ⟨[3], [0x13]⟩]) := by decide +kernel
example : diagTest 0x7 [[2, 0, 0], [0, 3, 0], [0, 0, 2]] = ok (true, [7], [⟨[2], [7]⟩, ⟨[3], [7]⟩]) := by decide +kernel

/-- The diagonal matrix diag(0, 1) over F_{2^31}: factoring its characteristic polynomial throws. -/
theorem C95_violated_31 (tm : TrimMask) : Irreducible (toPoly [0x80000009#64]) ∧
    Diag.is_diagonalizable tm qs vs (mtx 0x80000009 [[0, 0], [0, 1]]) = throw := by
  refine ⟨C57_violated_31.1, ?_⟩
  have h : LinAlg.f2n_char_poly (mtx 0x80000009 [[0, 0], [0, 1]]) = ok (f2nOf 0x80000009 [0, 1, 1]) := by decide +kernel
  unfold Diag.is_diagonalizable
  rw [h, ok_bind, C57_violated_31.2, throw_bind]

/-- Over F_{2^32} the call is undefined. -/
theorem C95_violated_32 (tm : TrimMask) : Irreducible (toPoly [0x100400007#64]) ∧
    Diag.is_diagonalizable tm qs vs (mtx 0x100400007 [[0, 0], [0, 1]]) = ub := by
  refine ⟨C57_violated_32.1, ?_⟩
  have h : LinAlg.f2n_char_poly (mtx 0x100400007 [[0, 0], [0, 1]]) = ok (f2nOf 0x100400007 [0, 1, 1]) := by decide +kernel
  unfold Diag.is_diagonalizable
  rw [h, ok_bind, C57_violated_32.2, ub_bind]

end LA
end Spffl.Props
