/-
Proofs about Frobenius orbits of points.
-/
import Verif.Model.FrobOrbit
import Verif.Proof.VecAlias
import Verif.Proof.CoefInst
import Verif.Proof.F2nFactor

namespace Spffl
open Res Polynomial
namespace FrobOrbit
variable {m : (ZMod 2)[X]} {nv : ℕ}

theorem frob_ok {v : TVec F2Mod} {x : Fin nv → AdjoinRoot m} (hv : VRep (F2Mod.Rep m) v x) :
    (frob v).Sat False (fun r => VRep (F2Mod.Rep m) r (fun i => x i ^ 2)) := by
  unfold frob
  rw [hv.1]
  refine (forUp_sat (fun k s => s.length = nv ∧ ∀ j (hj : j < nv), j < k → At s j (fun e => F2Mod.Rep m e (x ⟨j, hj⟩ ^ 2)))
    (Nat.zero_le _) ⟨hv.1, fun j _ h => absurd h (Nat.not_lt_zero _)⟩ fun i s _ hi ⟨hl, hs⟩ => ?_).mono
    fun r ⟨h1, h2⟩ => VRep.of h1 fun j hj => h2 j hj hj
  have hr : (do let y ← TVec.get v i; F2Mod.exp y 2 : Res F2Mod).Sat False (fun e => F2Mod.Rep m e (x ⟨i, hi⟩ ^ 2)) := by
    unfold TVec.get
    rw [if_pos (by rw [hv.1]; exact hi)]
    refine (rd_sat (hv.at hi)).bind fun y hy => ?_
    exact (F2Mod.exp_ok (e := 2) hy (by decide) (Or.inl (by decide))).sat
  refine (vput_sat (by rw [hl]; exact hi) hr).mono fun w ⟨e, he, hw⟩ => ?_
  subst hw
  refine ⟨by simp [hl], fun j hj hji => ?_⟩
  by_cases h : j = i
  · subst h; exact ⟨e, by rw [List.getElem?_set_self (by omega)], he⟩
  · obtain ⟨y, hy, hy'⟩ := hs j hj (by omega)
    exact ⟨y, by rw [List.getElem?_set_ne (by omega)]; exact hy, hy'⟩

/-- The matrix while `frobit` runs: the first `j` rows are the iterates. -/
structure Inv (x : Fin nv → AdjoinRoot m) (n j : ℕ) (A : TMat F2Mod) : Prop where
  nr : A.num_rows = n
  nc : A.num_cols = nv
  len : A.rows.length = n
  row : ∀ k, k < j → At A.rows k (fun r => VRep (F2Mod.Rep m) r (fun i => x i ^ 2 ^ k))

theorem crow_sat {x : Fin nv → AdjoinRoot m} {n j : ℕ} {A : TMat F2Mod} (h : Inv x n j A) (hj : j < n) {r : Res (TVec F2Mod)}
    (hr : r.Sat False (fun w => VRep (F2Mod.Rep m) w (fun i => x i ^ 2 ^ j))) : (crow A j r).Sat False (Inv x n (j + 1)) := by
  unfold crow
  refine hr.bind fun w hw => ?_
  rw [if_pos (by rw [h.nr]; exact hj)]
  unfold TMat.setRow
  rw [ok_bind, show wr A.rows j w = ok (A.rows.set j w) by unfold wr; rw [if_pos (by rw [h.len]; exact hj)], ok_bind, Sat_ok]
  refine ⟨h.nr, h.nc, by simp [h.len], fun k hk => ?_⟩
  by_cases hkj : k = j
  · subst hkj; exact ⟨w, by rw [List.getElem?_set_self (by rw [h.len]; exact hj)], hw⟩
  · obtain ⟨y, hy, hy'⟩ := h.row k (by omega)
    exact ⟨y, by rw [List.getElem?_set_ne (by omega)]; exact hy, hy'⟩

theorem row_sat {x : Fin nv → AdjoinRoot m} {n j k : ℕ} {A : TMat F2Mod} (h : Inv x n j A) (hk : k < j) (hkn : k < n) :
    (TMat.row A k).Sat False (fun w => VRep (F2Mod.Rep m) w (fun i => x i ^ 2 ^ k)) := by
  unfold TMat.row
  rw [if_pos (by rw [h.nr]; exact hkn)]
  exact rd_sat (h.row k hk)

/-- The number of rows: the first return to `x`, at most `n`. -/
def Deg (x : Fin nv → AdjoinRoot m) (n d : ℕ) : Prop :=
  0 < d ∧ d ≤ n ∧ (∀ k, 0 < k → k < d → (fun i => x i ^ 2 ^ k) ≠ x) ∧ (d < n → (fun i => x i ^ 2 ^ d) = x)

theorem frobitLoop_sat (hm0 : m ≠ 0) {v : TVec F2Mod} {x : Fin nv → AdjoinRoot m} (hv : VRep (F2Mod.Rep m) v x) {n : ℕ} :
    ∀ (k j : ℕ) (A : TMat F2Mod), j + k = n → 0 < j → Inv x n j A → (∀ t, 0 < t → t < j → (fun i => x i ^ 2 ^ t) ≠ x) →
      (frobitLoop v k j A j).Sat False (fun r => ∃ d : ℕ, r.2 = d ∧ Deg x n d ∧ Inv x n d r.1)
  | 0, j, A, h, hj, hA, hne => by
    rw [frobitLoop, Sat_ok]
    exact ⟨j, rfl, ⟨hj, by omega, hne, fun h' => by omega⟩, hA⟩
  | k + 1, j, A, h, hj, hA, hne => by
    rw [frobitLoop]
    refine (row_sat hA (k := j - 1) (by omega) (by omega)).bind fun prev hp => ?_
    refine (crow_sat hA (by omega) ((frob_ok hp).mono fun w hw => ?_)).bind fun A' hA' => ?_
    · have : (fun i => (x i ^ 2 ^ (j - 1)) ^ 2) = fun i => x i ^ 2 ^ j := by
        funext i
        rw [← pow_mul, ← pow_succ, Nat.sub_add_cancel hj]
      rwa [this] at hw
    refine (row_sat hA' (k := j) (by omega) (by omega)).bind fun w hw => ?_
    refine (veq_sat (F2Mod.cops_ref hm0).elt hw hv).bind fun b hb => ?_
    split
    · rename_i hbt
      rw [Sat_ok]
      exact ⟨j, rfl, ⟨hj, by omega, hne, fun _ => hb.1 hbt⟩, hA'.nr, hA'.nc, hA'.len, fun t ht => hA'.row t (by omega)⟩
    · rename_i hbf
      have := frobitLoop_sat hm0 hv k (j + 1) A' (by omega) (by omega) hA' fun t h0 ht => by
        by_cases htj : t = j
        · subst htj; exact fun e => hbf (hb.2 e)
        · exact hne t h0 (by omega)
      simpa using this

theorem frobit_sat (hm0 : m ≠ 0) {v : TVec F2Mod} {x : Fin nv → AdjoinRoot m} (hnv : 0 < nv) (hv : VRep (F2Mod.Rep m) v x) {n : ℕ}
    (hn : 0 < n) : (frobit v n).Sat False (fun A => ∃ d : ℕ, Deg x n d ∧
      MRep (F2Mod.Rep m) A (Matrix.of fun (k : Fin d) i => x i ^ 2 ^ (k : ℕ))) := by
  unfold frobit TMat.alloc
  rw [hv.1, if_neg (by omega), ok_bind]
  refine (crow_sat (x := x) (n := n) (j := 0) ⟨by simp, by simp, by simp, fun k hk => absurd hk (Nat.not_lt_zero _)⟩ hn ?_).bind
    fun A hA => ?_
  · rw [Sat_ok]; simpa using hv
  refine (frobitLoop_sat hm0 hv (n - 1) 1 A (by omega) (by omega) hA fun t h1 h2 => by omega).bind fun r ⟨d, hd, hD, hI⟩ => ?_
  unfold TMat.trim_num_rows
  rw [hd, if_neg (by rw [hI.nr]; have := hD.1; have := hD.2.1; omega), Sat_ok]
  refine ⟨d, hD, MRep.of ⟨by simp, hI.nc, fun i hi => ?_⟩ fun i j hi hj => ?_⟩
  · obtain ⟨r, hr, hr'⟩ := hI.row i hi
    exact ⟨r, hr, hr'.1⟩
  · obtain ⟨r, hr, hr'⟩ := hI.row i hi
    obtain ⟨e, he, he'⟩ := hr'.at hj
    exact ⟨e, by simp [ent, hr, he], he'⟩

end FrobOrbit
end Spffl
