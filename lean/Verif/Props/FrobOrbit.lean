/-
Property C127: the Frobenius orbit of a point over a field with 2^n elements (pre-cmake/apps/agff/agff.cpp).
-/
import Verif.Proof.FrobOrbit
import Mathlib.Dynamics.PeriodicPts.Defs
import Mathlib.FieldTheory.Finite.Basic
import Mathlib.RingTheory.Nilpotent.Basic

namespace Spffl.Props
open Res Polynomial
namespace FrobOrbit
variable {m : (ZMod 2)[X]} {nv : ℕ}

/-- squaring of every coordinate -/
noncomputable def sq (x : Fin nv → AdjoinRoot m) : Fin nv → AdjoinRoot m := fun i => x i ^ 2

theorem sq_iter (x : Fin nv → AdjoinRoot m) (k : ℕ) : sq^[k] x = fun i => x i ^ 2 ^ k := by
  induction k with
  | zero => simp
  | succ k ih => rw [Function.iterate_succ_apply', ih]; funext i; simp only [sq]; rw [← pow_mul, ← pow_succ]

/-- C127: `F2_frob` squares every coordinate. -/
theorem C127_frob {v : TVec F2Mod} {x : Fin nv → AdjoinRoot m} (hv : VRep (F2Mod.Rep m) v x) :
    (Spffl.FrobOrbit.frob v).Ok (fun r => VRep (F2Mod.Rep m) r (sq x)) := sat_false.1 (Spffl.FrobOrbit.frob_ok hv)

/-- C127: for any modulus and any number n of rows, `F2_frobit` returns the iterates up to the first return, at most n of them. -/
theorem C127_frobit (hm0 : m ≠ 0) {v : TVec F2Mod} {x : Fin nv → AdjoinRoot m} (hnv : 0 < nv) (hv : VRep (F2Mod.Rep m) v x) {n : ℕ}
    (hn : 0 < n) : (Spffl.FrobOrbit.frobit v n).Ok (fun A => ∃ d : ℕ, (0 < d ∧ d ≤ n) ∧ MRep (F2Mod.Rep m) A (fun k : Fin d => sq^[k] x) ∧
      (∀ k, 0 < k → k < d → sq^[k] x ≠ x) ∧ (d < n → sq^[d] x = x)) := by
  refine sat_false.1 ((Spffl.FrobOrbit.frobit_sat hm0 hnv hv hn).mono fun A ⟨d, ⟨h1, h2, h3, h4⟩, hA⟩ => ⟨d, ⟨h1, h2⟩, ?_, ?_, ?_⟩)
  · have : (fun k : Fin d => sq^[k] x) = Matrix.of fun (k : Fin d) i => x i ^ 2 ^ (k : ℕ) := by funext k; rw [sq_iter]; rfl
    rw [this]; exact hA
  · intro k; rw [sq_iter]; exact h3 k
  · rw [sq_iter]; exact h4

/-- C127: a number of rows that is not positive is refused. -/
theorem C127_refused (v : TVec F2Mod) {n : ℤ} (hn : n ≤ 0) : Spffl.FrobOrbit.frobit v n = throw := by
  unfold Spffl.FrobOrbit.frobit TMat.alloc
  rw [if_pos (Or.inl hn)]; rfl

/-- C127: over a field with 2^n elements, called with n as agff does, the rows are the points of the Frobenius orbit, each once; their
number is the degree of the point: it divides n, and it divides k exactly when all coordinates lie in the field with 2^k elements. -/
theorem C127_orbit (hm : Irreducible m) {v : TVec F2Mod} {x : Fin nv → AdjoinRoot m} (hnv : 0 < nv) (hv : VRep (F2Mod.Rep m) v x) :
    (Spffl.FrobOrbit.frobit v m.natDegree).Ok (fun A => ∃ (d : ℕ) (M : Matrix (Fin d) (Fin nv) (AdjoinRoot m)), MRep (F2Mod.Rep m) A M ∧
      Function.Injective M ∧ (∀ y, (∃ k, M k = y) ↔ ∃ t : ℕ, y = fun i => x i ^ 2 ^ t) ∧ d ∣ m.natDegree ∧
      ∀ k, d ∣ k ↔ ∀ i, x i ^ 2 ^ k = x i) := by
  have : Fact (Irreducible m) := ⟨hm⟩
  have hper : sq^[m.natDegree] x = x := by
    rw [sq_iter]
    funext i
    have : Finite (AdjoinRoot m) := Nat.finite_of_card_ne_zero (by rw [F2nP.natCard_eq hm.ne_zero]; positivity)
    haveI := Fintype.ofFinite (AdjoinRoot m)
    have := FiniteField.pow_card (x i)
    rwa [F2nP.card_eq] at this
  have hpos : 0 < m.natDegree := by
    rcases Nat.eq_zero_or_pos m.natDegree with h | h
    · exact absurd ((natDegree_eq_zero_iff_degree_le_zero.1 h)) (not_le.2 (degree_pos_of_irreducible hm))
    · exact h
  refine (C127_frobit hm.ne_zero hnv hv hpos).mono fun A ⟨d, ⟨h0, hle⟩, hA, hne, hret⟩ => ?_
  have hd : sq^[d] x = x := by
    rcases Nat.lt_or_ge d m.natDegree with h | h
    · exact hret h
    · rw [le_antisymm hle h]; exact hper
  have hmin : Function.minimalPeriod sq x = d := by
    refine le_antisymm (Function.IsPeriodicPt.minimalPeriod_le h0 hd) (not_lt.1 fun hlt => ?_)
    exact hne _ (Function.IsPeriodicPt.minimalPeriod_pos h0 hd) hlt (Function.isPeriodicPt_minimalPeriod sq x)
  have hdvd : ∀ k, d ∣ k ↔ sq^[k] x = x := fun k => by
    rw [← hmin]; exact Function.isPeriodicPt_iff_minimalPeriod_dvd.symm
  refine ⟨d, _, hA, ?_, fun y => ⟨?_, ?_⟩, (hdvd _).2 hper, fun k => ?_⟩
  · intro a b hab
    refine Fin.ext ?_
    have := Function.iterate_injOn_Iio_minimalPeriod (f := sq) (x := x) (by rw [hmin]; exact a.2) (by rw [hmin]; exact b.2) hab
    exact this
  · rintro ⟨k, rfl⟩; exact ⟨k, sq_iter x k⟩
  · rintro ⟨t, rfl⟩
    refine ⟨⟨t % d, Nat.mod_lt _ h0⟩, ?_⟩
    have h := Function.iterate_mod_minimalPeriod_eq (f := sq) (x := x) (n := t)
    rw [hmin] at h
    rw [← sq_iter]
    exact h
  · rw [hdvd, sq_iter]; exact ⟨fun h i => congrFun h i, fun h => funext h⟩

/-- C127, refuted for user-given reductors: modulo x^n with 4 ≤ n, the "orbit" of the point x has n rows, and the last two are equal. -/
theorem C127_violated_reducible {n : ℕ} (hn : 4 ≤ n) {v : TVec F2Mod}
    (hv : VRep (F2Mod.Rep (X ^ n : (ZMod 2)[X])) v (fun _ : Fin 1 => AdjoinRoot.root (X ^ n : (ZMod 2)[X]))) :
    (Spffl.FrobOrbit.frobit v n).Ok (fun A => ∃ M : Matrix (Fin n) (Fin 1) (AdjoinRoot (X ^ n : (ZMod 2)[X])),
      MRep (F2Mod.Rep (X ^ n)) A M ∧ M ⟨n - 2, by omega⟩ = M ⟨n - 1, by omega⟩) := by
  have hm0 : (X ^ n : (ZMod 2)[X]) ≠ 0 := pow_ne_zero _ X_ne_zero
  set t := AdjoinRoot.root (X ^ n : (ZMod 2)[X]) with ht
  have hnil : t ^ n = 0 := by
    rw [ht, ← AdjoinRoot.mk_X, ← map_pow, AdjoinRoot.mk_self]
  have ht0 : t ≠ 0 := by
    rw [ht, ← AdjoinRoot.mk_X, Ne, AdjoinRoot.mk_eq_zero]
    intro h
    have := natDegree_le_of_dvd h X_ne_zero
    rw [natDegree_X_pow, natDegree_X] at this
    omega
  refine (C127_frobit hm0 (by omega) hv (by omega)).mono fun A ⟨d, ⟨h0, hle⟩, hA, _, hret⟩ => ?_
  have hdn : d = n := by
    by_contra hc
    have h1 := congrFun (hret (by omega)) 0
    rw [sq_iter] at h1
    have h2 : 2 ^ d = (2 ^ d - 1) + 1 := by have := Nat.one_le_two_pow (n := d); omega
    have h3 : 2 ^ d - 1 ≠ 0 := by have := Nat.one_lt_two_pow (n := d) (by omega); omega
    have hu : IsUnit (1 - t ^ (2 ^ d - 1)) := by
      refine IsNilpotent.isUnit_one_sub ⟨n, ?_⟩
      rw [← pow_mul, mul_comm, pow_mul, hnil, zero_pow h3]
    refine ht0 (hu.mul_right_eq_zero.1 ?_)
    have h4 : t ^ (2 ^ d - 1) * t = t := by rw [← pow_succ, ← h2]; exact h1
    rw [sub_mul, one_mul, h4, sub_self]
  subst hdn
  refine ⟨_, hA, ?_⟩
  have hz : ∀ k, d ≤ 2 ^ k → (fun _ : Fin 1 => t ^ 2 ^ k) = fun _ => 0 := fun k hk => by
    funext _; exact pow_eq_zero_of_le hk hnil
  have hb : ∀ s, s + 4 ≤ 2 ^ (s + 2) := fun s => by
    induction s with
    | zero => norm_num
    | succ s ih => rw [show s + 1 + 2 = (s + 2) + 1 by omega, pow_succ]; omega
  show sq^[d - 2] _ = sq^[d - 1] _
  have h2 := hb (d - 4)
  rw [show d - 4 + 2 = d - 2 by omega] at h2
  rw [sq_iter, sq_iter, hz _ (by omega), hz _ (by
    have := Nat.pow_le_pow_right (n := 2) (by norm_num) (show d - 2 ≤ d - 1 by omega); omega)]

/-! ### examples -/

private def w4 (l : List (BitVec 64)) : TVec F2Mod := l.map fun a => ⟨[a], [0x13]⟩

/-- x in the field with 16 elements has four conjugates: x, x^2, x+1, x^2+1; x^2+x has two. -/
example : (Spffl.FrobOrbit.frobit (w4 [2, 1]) 4 >>= fun A => ok (A.num_rows, A.rows.take A.num_rows)) =
    ok (4, [w4 [2, 1], w4 [4, 1], w4 [3, 1], w4 [5, 1]]) := by decide +kernel
example : (Spffl.FrobOrbit.frobit (w4 [6, 1]) 4 >>= fun A => ok (A.num_rows, A.rows.take A.num_rows)) =
    ok (2, [w4 [6, 1], w4 [7, 1]]) := by decide +kernel
example : (Spffl.FrobOrbit.frobit (w4 [0, 1]) 4 >>= fun A => ok A.num_rows) = ok 1 := by decide +kernel
/-- modulo x^4: x, x^2, 0, 0. -/
example : (Spffl.FrobOrbit.frobit [⟨[2], [16]⟩] 4 >>= fun A => ok A.rows) =
    ok [[⟨[2], [16]⟩], [⟨[4], [16]⟩], [⟨[0], [16]⟩], [⟨[0], [16]⟩]] := by decide +kernel

end FrobOrbit
end Spffl.Props
