/-
Inverse, linear solve and powers of tmatrix over a field.
-/
import Verif.Proof.Kernel

namespace Spffl
open Res

section math
variable {F : Type} [Field F] {m n : ℕ}

/-- the matrix `[M | N]` -/
def hcat {R : Type} {k : ℕ} (M : Matrix (Fin m) (Fin n) R) (N : Matrix (Fin m) (Fin k) R) : Matrix (Fin m) (Fin (n + k)) R :=
  Matrix.of fun i => Fin.append (M i) (N i)

theorem hcat_left {R : Type} {k : ℕ} (M : Matrix (Fin m) (Fin n) R) (N : Matrix (Fin m) (Fin k) R) (i : Fin m) (j : Fin n) :
    hcat M N i (Fin.castAdd k j) = M i j := by simp [hcat]

theorem hcat_right {R : Type} {k : ℕ} (M : Matrix (Fin m) (Fin n) R) (N : Matrix (Fin m) (Fin k) R) (i : Fin m) (j : Fin k) :
    hcat M N i (Fin.natAdd n j) = N i j := by simp [hcat]

theorem mul_hcat {R : Type} [CommRing R] {k l : ℕ} (P : Matrix (Fin l) (Fin m) R) (M : Matrix (Fin m) (Fin n) R) (N : Matrix (Fin m) (Fin k) R) :
    P * hcat M N = hcat (P * M) (P * N) := by
  ext i j
  refine Fin.addCases (fun j => ?_) (fun j => ?_) j
  · rw [hcat_left, Matrix.mul_apply, Matrix.mul_apply]; simp only [hcat_left]
  · rw [hcat_right, Matrix.mul_apply, Matrix.mul_apply]; simp only [hcat_right]

/-- strictly increasing positions bounded by the number of positions are the identity -/
theorem pivots_id {N : ℕ} {p : Fin n → Fin N} (hp : StrictMono p) (hlt : ∀ i, (p i : ℕ) < n) (i : Fin n) : (p i : ℕ) = i := by
  have up : ∀ k, ∀ i : Fin n, (i : ℕ) = k → k ≤ p i := by
    intro k
    induction k with
    | zero => intro i _; omega
    | succ k ih =>
      intro i hi
      have h1 := ih ⟨k, by omega⟩ rfl
      have h2 : (p ⟨k, by omega⟩ : ℕ) < p i := hp (by show k < (i : ℕ); omega)
      omega
  have down : ∀ k, ∀ i : Fin n, (i : ℕ) + k = n - 1 → (p i : ℕ) + k ≤ n - 1 := by
    intro k
    induction k with
    | zero => intro i _; have := hlt i; omega
    | succ k ih =>
      intro i hi
      have h1 := ih ⟨i + 1, by omega⟩ (by simp; omega)
      have h2 : (p i : ℕ) < p ⟨i + 1, by omega⟩ := hp (by show (i : ℕ) < i + 1; omega)
      omega
  have h1 := up i i rfl
  have h2 := down (n - 1 - i) i (by omega)
  omega

/-- left block of a reduced form with an invertible left block -/
theorem reduced_left_one {k : ℕ} {L : Matrix (Fin n) (Fin n) F} {N : Matrix (Fin n) (Fin k) F} {r : ℕ} {p : Fin r → Fin (n + k)}
    (h : IsReduced (hcat L N) r p) (hL : IsUnit L) : L = 1 := by
  have hrow : ∀ i : Fin n, ∃ j, L i j ≠ 0 := by
    intro i
    by_contra hc
    push Not at hc
    have hdet : L.det = 0 := Matrix.det_eq_zero_of_row_eq_zero i hc
    exact not_isUnit_zero (hdet ▸ (Matrix.isUnit_iff_isUnit_det L).mp hL)
  have hr : r = n := by
    apply le_antisymm h.le
    by_contra hlt
    obtain ⟨j, hj⟩ := hrow ⟨r, by omega⟩
    apply hj
    rw [← hcat_left L N, h.zero ⟨r, by omega⟩ le_rfl]; rfl
  subst hr
  have hp : ∀ i, (p i : ℕ) < r := by
    intro i
    obtain ⟨j, hj⟩ := hrow i
    by_contra hge
    apply hj
    rw [← hcat_left L N]
    exact h.left i _ (by show (j : ℕ) < p i; omega)
  have hpi := pivots_id h.mono hp
  have hpe : ∀ i, p i = Fin.castAdd k i := fun i => Fin.ext (by rw [hpi]; rfl)
  ext i j
  rw [← hcat_left L N, ← hpe]
  by_cases hij : i = j
  · subst hij; rw [Matrix.one_apply_eq]; exact h.one i
  · rw [Matrix.one_apply_ne hij]; exact h.clear i j (fun h => hij (Fin.ext h))

/-- A reduced form of `[M | b]` with `n` pivots when `M` has rank `n`: the solution is in the last column. -/
theorem reduced_solve {L : Matrix (Fin m) (Fin n) F} {c : Matrix (Fin m) (Fin 1) F} {p : Fin n → Fin (n + 1)} (hn : 0 < n)
    (h : IsReduced (hcat L c) n p) (hL : L.rank = n) :
    L.mulVec (fun i => c ⟨i, i.2.trans_le h.le⟩ 0) = fun i => c i 0 := by
  have hlast : (p ⟨n - 1, by omega⟩ : ℕ) < n := by
    by_contra hge
    have hlt : ∀ i : Fin (n - 1), (p ⟨i, by omega⟩ : ℕ) < n := by
      intro i
      have h1 : p ⟨i, by omega⟩ < p ⟨n - 1, by omega⟩ := h.mono (by show (i : ℕ) < n - 1; omega)
      have h2 : (p ⟨i, by omega⟩ : ℕ) < p ⟨n - 1, by omega⟩ := h1
      have h3 := (p ⟨n - 1, by omega⟩).2
      omega
    have : IsEchelon L (n - 1) (fun i => ⟨p ⟨i, by omega⟩, hlt i⟩) := by
      refine ⟨by have := h.le; omega, fun a b hab => h.mono (show (⟨a, _⟩ : Fin n) < ⟨b, _⟩ from hab), fun i hi => ?_, fun i => ?_, fun i j hj => ?_⟩
      · funext j
        rw [← hcat_left L c]
        by_cases hin : (i : ℕ) < n
        · have hi' : i = ⟨n - 1, by have := h.le; omega⟩ := Fin.ext (by simp; omega)
          rw [hi']
          exact h.left ⟨n - 1, by omega⟩ _ (by show (j : ℕ) < _; omega)
        · rw [h.zero i (by omega)]; rfl
      · rw [← hcat_left L c]
        have := h.one ⟨i, by omega⟩
        convert this using 2
        exact Fin.ext rfl
      · rw [← hcat_left L c]
        exact h.left ⟨i, by omega⟩ _ hj
    have := this.rank_eq
    omega
  have hp : ∀ i, (p i : ℕ) < n := by
    intro i
    have : p i ≤ p ⟨n - 1, by omega⟩ := h.mono.monotone (by show (i : ℕ) ≤ n - 1; omega)
    have : (p i : ℕ) ≤ p ⟨n - 1, by omega⟩ := this
    omega
  have hpe : ∀ i, p i = Fin.castAdd 1 i := fun i => Fin.ext (by rw [pivots_id h.mono hp]; rfl)
  funext i
  have key : ∀ j : Fin n, L i j = if (i : ℕ) = j then 1 else 0 := by
    intro j
    rw [← hcat_left L c, ← hpe]
    by_cases hij : (i : ℕ) = j
    · rw [if_pos hij]
      have := h.one j
      rw [← this]; congr 1; exact Fin.ext hij
    · rw [if_neg hij]; exact h.clear i j hij
  rw [Matrix.mulVec, dotProduct]
  by_cases hin : (i : ℕ) < n
  · rw [Finset.sum_eq_single ⟨i, hin⟩]
    · rw [key]; simp
    · intro b _ hb
      rw [key, if_neg (fun h => hb (Fin.ext h.symm)), zero_mul]
    · simp
  · rw [Finset.sum_eq_zero fun j _ => by rw [key, if_neg (by omega), zero_mul]]
    rw [← hcat_right L c, h.zero i (by omega)]; rfl

theorem rank_eq_iff_ker {M : Matrix (Fin m) (Fin n) F} : M.rank = n ↔ ∀ x, M.mulVec x = 0 → x = 0 := by
  have h1 := LinearMap.finrank_range_add_finrank_ker M.mulVecLin
  rw [Module.finrank_fin_fun] at h1
  have h2 : M.rank = Module.finrank F (LinearMap.range M.mulVecLin) := rfl
  constructor
  · intro h x hx
    have : Module.finrank F (LinearMap.ker M.mulVecLin) = 0 := by omega
    rw [Submodule.finrank_eq_zero] at this
    have hm : x ∈ LinearMap.ker M.mulVecLin := by simpa using hx
    rw [this] at hm; simpa using hm
  · intro h
    have : LinearMap.ker M.mulVecLin = ⊥ := by
      rw [eq_bot_iff]; intro x hx; simpa using h x (by simpa using hx)
    rw [this, finrank_bot] at h1
    omega

theorem existsUnique_iff {M : Matrix (Fin m) (Fin n) F} {b : Fin m → F} : (∃! x, M.mulVec x = b) ↔ M.rank = n ∧ ∃ x, M.mulVec x = b := by
  rw [rank_eq_iff_ker]
  constructor
  · rintro ⟨x, hx, hu⟩
    refine ⟨fun y hy => ?_, x, hx⟩
    have := hu (x + y) (by simp only; rw [Matrix.mulVec_add, hy, hx, add_zero])
    simpa using this
  · rintro ⟨hk, x, hx⟩
    refine ⟨x, hx, fun y hy => ?_⟩
    have := hk (y - x) (by rw [Matrix.mulVec_sub, hy, hx, sub_self])
    exact sub_eq_zero.mp this

theorem rank_hcat {M : Matrix (Fin m) (Fin n) F} {x : Fin n → F} {b : Matrix (Fin m) (Fin 1) F} (h : M.mulVec x = fun i => b i 0) :
    (hcat M b).rank = M.rank := by
  apply le_antisymm
  · have : hcat M b = M * hcat (1 : Matrix (Fin n) (Fin n) F) (Matrix.of fun i _ => x i) := by
      rw [mul_hcat, Matrix.mul_one]
      congr 1
      ext i j
      have := congrFun h i
      rw [Fin.fin_one_eq_zero j, ← this]; rfl
    rw [this]; exact Matrix.rank_mul_le_left _ _
  · have : M = hcat M b * (Matrix.of fun (j : Fin (n + 1)) (i : Fin n) => if j = Fin.castAdd 1 i then (1 : F) else 0) := by
      ext i j
      rw [Matrix.mul_apply, Finset.sum_eq_single (Fin.castAdd 1 j)]
      · rw [hcat_left]; simp
      · intro c _ hc; simp [hc]
      · simp
    conv_lhs => rw [this]
    exact Matrix.rank_mul_le_left _ _

end math

section fill
variable {U : Prop} {α : Type}

/-- double loop whose step `(i, j)` changes only entry `(i, κ j)` -/
theorem fillC_sat {m n a b c d : ℕ} {body : ℕ → ℕ → TMat α → Res (TMat α)} {s0 : TMat α} {P : ℕ → ℕ → α → Prop} {κ : ℕ → ℕ}
    (hab : a ≤ b) (hcd : c ≤ d) (h0 : Shape s0 m n)
    (hκ : ∀ j j', c ≤ j → j < d → c ≤ j' → j' < d → κ j = κ j' → j = j')
    (hb : ∀ i j s, a ≤ i → i < b → c ≤ j → j < d → Shape s m n →
      (body i j s).Sat U (fun t => Shape t m n ∧ At2 t i (κ j) (P i j) ∧
        ∀ i' j', (i' ≠ i ∨ j' ≠ κ j) → ent t i' j' = ent s i' j')) :
    (forUp a b s0 fun i s => forUp c d s fun j s => body i j s).Sat U (fun t => Shape t m n ∧
      (∀ i j, a ≤ i → i < b → c ≤ j → j < d → At2 t i (κ j) (P i j)) ∧
      ∀ i l, (∀ j, c ≤ j → j < d → l ≠ κ j) → ent t i l = ent s0 i l) := by
  refine (forUp_sat (fun k s => Shape s m n ∧ (∀ i j, a ≤ i → i < k → c ≤ j → j < d → At2 s i (κ j) (P i j)) ∧
    ∀ i l, (∀ j, c ≤ j → j < d → l ≠ κ j) → ent s i l = ent s0 i l) hab
    ⟨h0, fun i j h1 h2 => by omega, fun _ _ _ => rfl⟩ ?_)
  intro i s hi1 hi2 ⟨hs, hP, hE⟩
  refine (forUp_sat (fun k s => Shape s m n ∧
    (∀ i' j, a ≤ i' → (i' < i ∨ i' = i ∧ j < k) → c ≤ j → j < d → At2 s i' (κ j) (P i' j)) ∧
    ∀ i' l, (∀ j, c ≤ j → j < d → l ≠ κ j) → ent s i' l = ent s0 i' l) hcd
    ⟨hs, fun i' j h1 h2 h3 h4 => hP i' j h1 (by omega) h3 h4, hE⟩ ?_).mono ?_
  · intro j s hj1 hj2 ⟨hs, hP, hE⟩
    refine (hb i j s hi1 hi2 hj1 hj2 hs).mono
      fun t ⟨h1, h2, h3⟩ => ⟨h1, fun i' j' q1 q2 q3 q4 => ?_, fun i' l h => ?_⟩
    · by_cases he : i' = i ∧ j' = j
      · obtain ⟨rfl, rfl⟩ := he; exact h2
      · refine (hP i' j' q1 (by omega) q3 q4).congr (h3 i' (κ j') ?_)
        by_cases hii : i' = i
        · right; intro hk; exact he ⟨hii, hκ _ _ q3 q4 hj1 hj2 hk⟩
        · exact Or.inl hii
    · rw [h3 i' l (Or.inr (h j hj1 hj2))]; exact hE i' l h
  · intro t ⟨h1, h2, h3⟩
    exact ⟨h1, fun i' j q1 q2 q3 q4 => h2 i' j q1 (by omega) q3 q4, h3⟩

end fill

variable {U : Prop} {α R : Type} [CommRing R] {O : TOps α} {rep : α → R → Prop} {m n k : ℕ}

/-- pasting onto a square matrix -/
theorem paste_sat {A B : TMat α} {M : Matrix (Fin n) (Fin n) R} {N : Matrix (Fin n) (Fin k) R} (hn : 0 < n)
    (hA : MRep rep A M) (hB : MRep rep B N) : (TMat.paste O A B).Sat U (fun r => MRep rep r (hcat M N)) := by
  unfold TMat.paste
  rw [if_neg (by rw [hA.shape.nr, hB.shape.nr]; simp), hA.shape.nr, hA.shape.nc, hB.shape.nc]
  rw [show ((n : Int) + (k : Int)) = ((n + k : ℕ) : Int) by push_cast; rfl]
  refine (alloc_sat hn (by omega)).bind fun s hh => ?_
  obtain ⟨hs, _⟩ := hh
  refine (fillC_sat (κ := id) (body := fun i j s => TMat.put s i j (A.get i j)) (P := fun i j e => ∀ (hi : i < n) (hj : j < n), rep e (M ⟨i, hi⟩ ⟨j, hj⟩)) (Nat.zero_le _)
    (Nat.zero_le _) hs (fun _ _ _ _ _ _ h => h) fun i j s _ hi _ hj hs => put_sat hs hi (by omega) ((get_sat (hA.at hi hj)).mono fun e he _ _ => he)).bind fun t hh => ?_
  obtain ⟨ht, h1, _⟩ := hh
  refine (fillC_sat (κ := fun j => n + j) (body := fun i j s => TMat.put s i (n + j) (B.get i j)) (P := fun i j e => ∀ (hi : i < n) (hj : j < k), rep e (N ⟨i, hi⟩ ⟨j, hj⟩)) (Nat.zero_le _)
    (Nat.zero_le _) ht (fun _ _ _ _ _ _ h => by omega) fun i j s _ hi _ hj hs => put_sat hs hi (by omega) ((get_sat (hB.at hi hj)).mono fun e he _ _ => he)).mono fun t' ⟨g1, g2, g3⟩ => ?_
  refine ⟨g1, fun i j => ?_⟩
  refine Fin.addCases (fun j => ?_) (fun j => ?_) j
  · rw [hcat_left]
    refine ((h1 i j (by omega) i.2 (by omega) j.2).congr (g3 i _ fun j' _ _ => ?_)).mono fun e he => he i.2 j.2
    simp; omega
  · rw [hcat_right]
    exact (g2 i j (by omega) i.2 (by omega) j.2).mono fun e he => he i.2 j.2

theorem paste_throw {A B : TMat α} (h : A.num_rows ≠ B.num_rows) : TMat.paste O A B = throw := by
  unfold TMat.paste; rw [if_pos h]

theorem paste_vector_sat {A : TMat α} {v : TVec α} {M : Matrix (Fin m) (Fin n) R} {x : Fin m → R} (hm : 0 < m)
    (hA : MRep rep A M) (hv : VRep rep v x) :
    (TMat.paste_vector O A v).Sat U (fun r => MRep rep r (hcat M (Matrix.of fun i (_ : Fin 1) => x i))) := by
  unfold TMat.paste_vector
  rw [if_neg (by rw [hA.shape.nr, hv.1]; simp), hA.shape.nr, hA.shape.nc]
  rw [show ((n : Int) + 1) = ((n + 1 : ℕ) : Int) by push_cast; rfl]
  refine (alloc_sat hm (by omega)).bind fun s hh => ?_
  obtain ⟨hs, _⟩ := hh
  refine (fillC_sat (κ := id) (body := fun i j s => TMat.put s i j (A.get i j)) (P := fun i j e => ∀ (hi : i < m) (hj : j < n), rep e (M ⟨i, hi⟩ ⟨j, hj⟩)) (Nat.zero_le _)
    (Nat.zero_le _) hs (fun _ _ _ _ _ _ h => h) fun i j s _ hi _ hj hs => put_sat hs hi (by simp; omega) ((get_sat (hA.at hi hj)).mono fun e he _ _ => he)).bind fun t hh => ?_
  obtain ⟨ht, h1, _⟩ := hh
  refine (forUp_sat (fun q s => Shape s m (n + 1) ∧ (∀ i (hi : i < m), i < q → At2 s i n (fun e => rep e (x ⟨i, hi⟩))) ∧
    ∀ i j, j ≠ n → ent s i j = ent t i j) (Nat.zero_le _) ⟨ht, fun i _ h => by omega, fun _ _ _ => rfl⟩ ?_).mono fun t' ⟨g1, g2, g3⟩ => ?_
  · intro i s _ hi ⟨hs, hP, hE⟩
    refine (put_sat hs hi (by omega) (vget_sat (hv.at hi))).mono fun s' ⟨q1, q2, q3⟩ => ⟨q1, fun i' hi' h => ?_, fun i' j h => ?_⟩
    · by_cases hii : i' = i
      · subst hii; exact q2
      · exact (hP i' hi' (by omega)).congr (q3 i' n (Or.inl hii))
    · rw [q3 i' j (Or.inr h)]; exact hE i' j h
  refine ⟨g1, fun i j => ?_⟩
  refine Fin.addCases (fun j => ?_) (fun j => ?_) j
  · rw [hcat_left]
    refine ((h1 i j (by omega) i.2 (by omega) j.2).congr (g3 i _ ?_)).mono fun e he => he i.2 j.2
    simp; omega
  · rw [hcat_right]
    have : j = 0 := Fin.fin_one_eq_zero j
    subst this
    exact g2 i i.2 i.2

theorem paste_vector_throw {A : TMat α} {v : TVec α} (h : A.num_rows ≠ v.length) : TMat.paste_vector O A v = throw := by
  unfold TMat.paste_vector; rw [if_pos h]

theorem split_sat {A : TMat α} {M : Matrix (Fin m) (Fin n) R} {N : Matrix (Fin m) (Fin k) R} (hm : 0 < m) (hn : 0 < n) (hk : 0 < k)
    (hA : MRep rep A (hcat M N)) : (TMat.split O A n).Sat U (fun r => MRep rep r.1 M ∧ MRep rep r.2 N) := by
  unfold TMat.split
  rw [hA.shape.nr, hA.shape.nc, if_neg (by push_cast; omega)]
  rw [show (((n + k : ℕ) : Int) - (n : Int)) = ((k : ℕ) : Int) by push_cast; ring]
  refine (alloc_sat hm hn).bind fun l hl => ?_
  refine (alloc_sat hm hk).bind fun r hr => ?_
  refine (fillC_sat (κ := id) (body := fun i j s => TMat.put s i j (A.get i j)) (P := fun i j e => ∀ (hi : i < m) (hj : j < n), rep e (M ⟨i, hi⟩ ⟨j, hj⟩)) (Nat.zero_le _)
    (Nat.zero_le _) hl.1 (fun _ _ _ _ _ _ h => h) fun i j s _ hi _ hj hs => put_sat hs hi (by simpa using hj) ((get_sat (hA.at hi (j := j) (by simp at hj; omega))).mono fun e he hi hj => ?_)).bind fun t hh => ?_
  · rw [← hcat_left M N]; exact he
  obtain ⟨ht, h1, _⟩ := hh
  refine (fillC_sat (c := n) (d := n + k) (κ := fun j => j - n) (body := fun i j s => TMat.put s i (j - n) (A.get i j)) (P := fun i j e => ∀ (hi : i < m) (hj : j - n < k), rep e (N ⟨i, hi⟩ ⟨j - n, hj⟩)) (Nat.zero_le _)
    (by omega) hr.1 (fun _ _ _ _ _ _ h => by omega) fun i j s _ hi hj1 hj hs => put_sat hs hi (by omega) ((get_sat (hA.at hi hj)).mono fun e he hi' hj' => ?_)).bind fun t' hh => ?_
  · rw [← hcat_right M N]
    convert he using 3
    simp; omega
  obtain ⟨ht', h2, _⟩ := hh
  rw [Sat_ok]
  refine ⟨⟨ht, fun i j => (h1 i j (by omega) i.2 (by omega) (by simp)).mono fun e he => he i.2 j.2⟩, ht', fun i j => ?_⟩
  have := h2 i (n + j) (by omega) i.2 (by omega) (by omega)
  simp only [Nat.add_sub_cancel_left] at this
  exact this.mono fun e he => he i.2 j.2

theorem make_I_sat {A : TMat α} {M : Matrix (Fin n) (Fin n) R} (hA : MRep rep A M) {zero one : α} (hz : rep zero 0) (ho : rep one 1) :
    (TMat.make_I A zero one).Sat U (fun r => MRep rep r (1 : Matrix (Fin n) (Fin n) R)) := by
  unfold TMat.make_I TMat.is_square
  rw [hA.shape.nr, hA.shape.nc]
  simp only [beq_self_eq_true, Bool.not_true, Bool.false_eq_true, if_false]
  refine (fill2_sat (body := fun i j s => TMat.put s i j (ok (if i = j then one else zero))) (P0 := fun _ _ _ => True) (P := fun i j e => rep e (if i = j then 1 else 0)) (Nat.zero_le _)
    (Nat.zero_le _) hA.shape (fun i j _ hi _ hj => (hA.at hi hj).mono fun _ _ => trivial) fun i j s _ hi _ hj hs _ => put_sat hs hi hj ?_).mono
    fun t ⟨h1, h2, _⟩ => ⟨h1, fun i j => (h2 i j (by omega) i.2 (by omega) j.2).mono fun e he => by rw [Matrix.one_apply]; simpa [Fin.ext_iff] using he⟩
  rw [Sat_ok]
  by_cases h : i = j
  · simp only [h, if_true]; exact ho
  · simp only [h, if_false]; exact hz

theorem diagLoop_sat (H : EqRef U O rep) {A : TMat α} {M : Matrix (Fin n) (Fin n) R} (hA : MRep rep A M) {one : α}
    (ho : rep one 1) : ∀ k i, k + i = n → (TMat.diagLoop O A one k i).Sat U
      (fun r => r = true ↔ ∀ l : Fin n, i ≤ (l : ℕ) → M l l = 1)
  | 0, j, h => by unfold TMat.diagLoop; simp only [Sat_ok, true_iff]; intro l hl; have := l.2; omega
  | k + 1, j, h => by
    unfold TMat.diagLoop
    have hj : j < n := by omega
    refine (get_sat (hA.at hj hj)).bind fun e he => ?_
    refine (neq_sat H he ho).bind fun d hd => ?_
    cases d with
    | true =>
      simp only [if_true, Sat_ok, Bool.false_eq_true, false_iff]
      exact fun h => hd.mp rfl (h ⟨j, hj⟩ le_rfl)
    | false =>
      have hx : M ⟨j, hj⟩ ⟨j, hj⟩ = 1 := by
        by_contra hne; simpa using hd.mpr hne
      simp only [Bool.false_eq_true, if_false]
      refine (diagLoop_sat H hA ho k (j + 1) (by omega)).mono fun r hr => hr.trans ⟨fun hh l hl => ?_, fun hh l hl => hh l (by omega)⟩
      by_cases h' : j + 1 ≤ (l : ℕ)
      · exact hh l h'
      · have : l = ⟨j, hj⟩ := Fin.ext (by simp; omega)
        rw [this]; exact hx

theorem offDiagRow_sat (H : EqRef U O rep) {A : TMat α} {M : Matrix (Fin n) (Fin n) R} (hA : MRep rep A M) {zero : α}
    (hz : rep zero 0) {i : ℕ} (hi : i < n) : ∀ k j, k + j = n → (TMat.offDiagRow O A zero i k j).Sat U
      (fun r => r = true ↔ ∀ l : Fin n, j ≤ (l : ℕ) → i ≠ (l : ℕ) → M ⟨i, hi⟩ l = 0)
  | 0, j, h => by unfold TMat.offDiagRow; simp only [Sat_ok, true_iff]; intro l hl; have := l.2; omega
  | k + 1, j, h => by
    unfold TMat.offDiagRow
    have hj : j < n := by omega
    by_cases hij : i = j
    · rw [if_pos hij]
      refine (offDiagRow_sat H hA hz hi k (j + 1) (by omega)).mono fun r hr => hr.trans ⟨fun hh l hl hne => hh l (by omega) hne, fun hh l hl hne => hh l (by omega) hne⟩
    rw [if_neg hij]
    refine (get_sat (hA.at hi hj)).bind fun e he => ?_
    refine (neq_sat H he hz).bind fun d hd => ?_
    cases d with
    | true =>
      simp only [if_true, Sat_ok, Bool.false_eq_true, false_iff]
      exact fun h => hd.mp rfl (h ⟨j, hj⟩ le_rfl hij)
    | false =>
      have hx : M ⟨i, hi⟩ ⟨j, hj⟩ = 0 := by
        by_contra hne; simpa using hd.mpr hne
      simp only [Bool.false_eq_true, if_false]
      refine (offDiagRow_sat H hA hz hi k (j + 1) (by omega)).mono fun r hr => hr.trans ⟨fun hh l hl hne => ?_, fun hh l hl => hh l (by omega)⟩
      by_cases h' : j + 1 ≤ (l : ℕ)
      · exact hh l h' hne
      · have : l = ⟨j, hj⟩ := Fin.ext (by simp; omega)
        rw [this]; exact hx

theorem offDiag_sat (H : EqRef U O rep) {A : TMat α} {M : Matrix (Fin n) (Fin n) R} (hA : MRep rep A M) {zero : α}
    (hz : rep zero 0) : ∀ k i, k + i = n → (TMat.offDiag O A zero k i).Sat U
      (fun r => r = true ↔ ∀ q l : Fin n, i ≤ (q : ℕ) → q ≠ l → M q l = 0)
  | 0, j, h => by unfold TMat.offDiag; simp only [Sat_ok, true_iff]; intro q l hl; have := q.2; omega
  | k + 1, i, h => by
    unfold TMat.offDiag
    have hi : i < n := by omega
    rw [hA.shape.nc]
    refine (offDiagRow_sat H hA hz hi n 0 rfl).bind fun b hb => ?_
    cases b with
    | false =>
      simp only [Bool.not_false, if_true, Sat_ok, Bool.false_eq_true, false_iff]
      intro hh
      simpa using hb.mpr fun l _ hne => hh ⟨i, hi⟩ l le_rfl (fun h => hne (congrArg Fin.val h))
    | true =>
      simp only [Bool.not_true, Bool.false_eq_true, if_false]
      have hb := hb.mp rfl
      refine (offDiag_sat H hA hz k (i + 1) (by omega)).mono fun r hr => hr.trans ⟨fun hh q l hq hne => ?_, fun hh q l hq => hh q l (by omega)⟩
      by_cases h' : i + 1 ≤ (q : ℕ)
      · exact hh q l h' hne
      · have : q = ⟨i, hi⟩ := Fin.ext (by simp; omega)
        subst this
        exact hb l (Nat.zero_le _) fun h => hne (Fin.ext h)

section field
variable {F : Type} [Field F] {rep : α → F → Prop}

theorem is_I_sat (H : EltRef U O rep) {A : TMat α} {M : Matrix (Fin n) (Fin n) F} (hn : 0 < n) (hA : MRep rep A M) :
    (TMat.is_I O A).Sat U (fun r => r = true ↔ M = 1) := by
  unfold TMat.is_I TMat.is_square
  rw [hA.shape.nr, hA.shape.nc]
  simp only [beq_self_eq_true, Bool.not_true, Bool.false_eq_true, if_false]
  refine (get_sat (hA.at hn hn)).bind fun a ha => ?_
  refine (H.sub ha ha).bind fun z hz => ?_
  rw [sub_self] at hz
  refine (find_one_sat H hn hn hA).bind fun o ho => ?_
  cases o with
  | none =>
    have ho : M = 0 := ho
    subst ho
    simp only [Sat_ok, Bool.false_eq_true, false_iff]
    intro h
    have := congrFun (congrFun h ⟨0, hn⟩) ⟨0, hn⟩
    simp at this
  | some one =>
    refine (diagLoop_sat H.eqRef hA ho.2 n 0 rfl).bind fun d hd => ?_
    cases d with
    | false =>
      simp only [Bool.not_false, if_true, Sat_ok, Bool.false_eq_true, false_iff]
      intro h; subst h
      simpa using hd.mpr fun l _ => by simp
    | true =>
      simp only [Bool.not_true, Bool.false_eq_true, if_false]
      have hd := hd.mp rfl
      refine (offDiag_sat H.eqRef hA hz n 0 rfl).mono fun r hr => hr.trans ⟨fun hh => ?_, fun hh q l _ hne => by rw [hh, Matrix.one_apply_ne hne]⟩
      ext i j
      by_cases hij : i = j
      · subst hij; rw [hd i (by omega)]; simp
      · rw [hh i j (by omega) hij, Matrix.one_apply_ne hij]

/-- inverse succeeds exactly for invertible matrices and then yields the two-sided inverse. -/
theorem inverse_sat (H : EltRef U O rep) {A : TMat α} {M : Matrix (Fin n) (Fin n) F} (hn : 0 < n) (hA : MRep rep A M) :
    (TMat.inverse O A).Sat U (fun r => (r.1 = true ↔ IsUnit M) ∧ (r.1 = true → ∃ B N, r.2 = some B ∧ MRep rep B N ∧ N * M = 1 ∧ M * N = 1)) := by
  unfold TMat.inverse TMat.is_square
  refine (get_sat (hA.at hn hn)).bind fun a ha => ?_
  refine (H.sub ha ha).bind fun z hz => ?_
  rw [sub_self] at hz
  rw [hA.shape.nr, hA.shape.nc]
  simp only [beq_self_eq_true, Bool.not_true, Bool.false_eq_true, if_false]
  refine (find_one_sat H hn hn hA).bind fun o ho => ?_
  cases o with
  | none =>
    have ho : M = 0 := ho
    subst ho
    haveI := Fin.pos_iff_nonempty.mp hn
    simp
  | some one =>
    refine (make_I_sat hA hz ho.2).bind fun I hI => ?_
    refine (paste_sat hn hA hI).bind fun pr hpr => ?_
    refine (ref_sat H hn (by omega) hpr).bind fun pr2 hpr2 => ?_
    obtain ⟨M', h1, ⟨rk, p, hred⟩, P, hP, hM'⟩ := hpr2
    rw [mul_hcat, Matrix.mul_one] at hM'
    subst hM'
    refine (split_sat hn hn hn h1).bind fun lr hlr => ?_
    refine (is_I_sat H hn hlr.1).bind fun b hb => ?_
    rw [Sat_ok]
    refine ⟨hb.trans ⟨fun h => ?_, fun h => reduced_left_one hred (hP.mul h)⟩, fun h => ⟨lr.2, P, rfl, hlr.2, hb.mp h, ?_⟩⟩
    · exact IsUnit.of_mul_eq_one P (mul_eq_one_comm.mp h)
    · exact mul_eq_one_comm.mp (hb.mp h)

theorem putX_sat {x : VObj α} {s : List α} (hs : x.elements = some s) {i : ℕ} (hi : i < x.num_elements) (hi2 : i < s.length) {r : Res α}
    {P : α → Prop} (hr : r.Sat U P) : (TMat.putX x i r).Sat U (fun y => ∃ e, P e ∧ y = ⟨some (s.set i e), x.num_elements⟩) := by
  unfold TMat.putX
  refine hr.bind fun e he => ?_
  rw [hs]
  simp only
  rw [if_pos hi, wr_ok hi2]
  simp only [ok_bind, Sat_ok]
  exact ⟨e, he, rfl⟩

/-- assigning a vector into an object whose array is big enough, or into one without an array -/
theorem assign_fits {d : α} {x : VObj α} {v : List α} (hx : ∀ s, x.elements = some s → v.length ≤ s.length) :
    ∃ s, VObj.assign d x (VObj.ofList v) = ok ⟨some s, v.length⟩ ∧ v.length ≤ s.length ∧ s.take v.length = v := by
  unfold VObj.assign VObj.ofList
  simp only [lt_irrefl, if_false]
  have key : ∀ st : List α, v.length ≤ st.length → (forUp 0 v.length st fun i s => store s i (VObj.rdElem ⟨some v, v.length⟩ i)).Sat False
      (fun r => r.length = st.length ∧ r.take v.length = v) := by
    intro st hst
    refine (fillUp_sat (f := fun i _ => VObj.rdElem ⟨some v, v.length⟩ i) (P := fun i e => v[i]? = some e) (Nat.zero_le _) hst fun i s _ hi _ _ _ => ?_).mono
      fun r ⟨h1, h2, _⟩ => ⟨h1, ?_⟩
    · unfold VObj.rdElem; simp only; rw [rd_ok hi]; simp [hi]
    · apply List.ext_getElem?
      intro i
      by_cases hi : i < v.length
      · rw [List.getElem?_take_of_lt hi]
        obtain ⟨e, he, he2⟩ := h2 i (by omega) hi
        rw [he, he2]
      · rw [List.getElem?_eq_none (by simp; omega), List.getElem?_eq_none (by omega)]
  cases hxe : x.elements with
  | none =>
    simp only
    obtain ⟨r, h1, h2⟩ := sat_false.mp (key (List.replicate v.length d) (by simp))
    rw [h1]; simp only [ok_bind]
    exact ⟨r, rfl, by rw [h2.1]; simp, h2.2⟩
  | some s =>
    simp only
    obtain ⟨r, h1, h2⟩ := sat_false.mp (key s (hx s hxe))
    rw [h1]; simp only [ok_bind]
    exact ⟨r, rfl, by rw [h2.1]; exact hx s hxe, h2.2⟩

theorem solve_full_sat (H : EltRef U O rep) {A : TMat α} {M : Matrix (Fin m) (Fin n) F} (hm : 0 < m) (hn : 0 < n) (hA : MRep rep A M)
    (hrank : M.rank = n) {b : TVec α} {y : Fin m → F} (hb : VRep rep b y) {x : VObj α} (hx : ∀ s, x.elements = some s → n ≤ s.length) :
    (TMat.solve_unique_full_rank O A x b).Sat U (fun r => (r.1 = true ↔ ∃ z, M.mulVec z = y) ∧
      (r.1 = true → ∃ v z, r.2.value = some v ∧ VRep rep v z ∧ M.mulVec z = y)) := by
  unfold TMat.solve_unique_full_rank
  refine (paste_vector_sat hm hA hb).bind fun Ab hAb => ?_
  refine (ref_sat H hm (by omega) hAb).bind fun Ab2 hAb2 => ?_
  obtain ⟨M', h1, ⟨rk, p, hred⟩, hR⟩ := hAb2
  refine (rank_rr_sat H hm (by omega) h1 hred.toIsEchelon).bind fun r hr => ?_
  subst hr
  rw [hA.shape.nc]
  have hrk : (∃ z, M.mulVec z = y) → r = n := by
    rintro ⟨z, hz⟩
    rw [← hred.rank_eq, hR.rank, rank_hcat (x := z) (by simpa using hz), hrank]
  by_cases hrn : r = n
  · rw [if_neg (by simpa using hrn)]
    subst hrn
    obtain ⟨P, hP, hM'⟩ := hR
    rw [mul_hcat] at hM'
    subst hM'
    have hL : (P * M).rank = r := by
      rw [Matrix.rank_mul_eq_right_of_isUnit_det _ _ ((Matrix.isUnit_iff_isUnit_det P).mp hP), hrank]
    have hsol := reduced_solve hn hred hL
    refine (valloc_sat hn).bind fun t ht => ?_
    obtain ⟨s, hs1, hs2, hs3⟩ := assign_fits (d := O.dflt) (x := x) (v := t) (by rw [ht]; exact hx)
    rw [hs1]; simp only [ok_bind]
    rw [ht] at hs2 hs3 ⊢
    refine (forUp_sat (fun i (x : VObj α) => x.num_elements = r ∧ ∃ s', x.elements = some s' ∧ s'.length = s.length ∧
      ∀ l (hl : l < r), l < i → At s' l (fun e => rep e ((P * Matrix.of fun i (_ : Fin 1) => y i) ⟨l, hl.trans_le hred.le⟩ 0))) (Nat.zero_le _)
      ⟨rfl, s, rfl, rfl, fun l _ h => by omega⟩ ?_).bind fun x' hx' => ?_
    · intro i x' _ hi ⟨g1, s', g2, g3, g4⟩
      refine (putX_sat (P := fun e => rep e ((P * Matrix.of fun i (_ : Fin 1) => y i) ⟨i, hi.trans_le hred.le⟩ 0)) g2 (by omega) (by omega) ?_).mono
        fun y ⟨e, he, hy⟩ => ?_
      · have := h1.at (i := i) (j := r) (hi.trans_le hred.le) (by omega)
        refine (get_sat this).mono fun e he => ?_
        exact hcat_right (P * M) (P * Matrix.of fun i (_ : Fin 1) => y i) ⟨i, hi.trans_le hred.le⟩ 0 ▸ he
      · subst hy
        refine ⟨g1, s'.set i e, rfl, by simpa using g3, fun l hl hli => ?_⟩
        by_cases hh : l = i
        · subst hh; exact at_set_self (by omega) he
        · exact (g4 l hl (by omega)).congr (List.getElem?_set_ne (Ne.symm hh))
    · obtain ⟨g1, s', g2, g3, g4⟩ := hx'
      have hMz : M.mulVec (fun i : Fin r => (P * Matrix.of fun i (_ : Fin 1) => y i) ⟨i, i.2.trans_le hred.le⟩ 0) = y := by
        apply Matrix.mulVec_injective_of_isUnit hP
        rw [Matrix.mulVec_mulVec, hsol]
        funext i; rfl
      rw [Sat_ok]
      refine ⟨⟨fun _ => ⟨_, hMz⟩, fun _ => rfl⟩, fun _ => ⟨s'.take r, _, ?_, VRep.of (by simp; omega) fun j hj => ?_, hMz⟩⟩
      · unfold VObj.value; rw [g2]; simp only; rw [if_pos (by omega), g1]
      · exact (g4 j hj hj).congr (List.getElem?_take_of_lt hj)
  · rw [if_pos hrn, Sat_ok]
    simp only [Bool.false_eq_true, false_iff, false_implies, and_true]
    exact fun h => hrn (hrk h)

theorem solve_sat (H : EltRef U O rep) {A : TMat α} {M : Matrix (Fin m) (Fin n) F} (hm : 0 < m) (hn : 0 < n) (hA : MRep rep A M)
    {b : TVec α} {y : Fin m → F} (hb : VRep rep b y) {x : VObj α} (hx : ∀ s, x.elements = some s → n ≤ s.length) :
    (TMat.solve_unique O A x b).Sat U (fun r => (r.1 = true ↔ ∃! z, M.mulVec z = y) ∧
      (r.1 = true → ∃ v z, r.2.value = some v ∧ VRep rep v z ∧ M.mulVec z = y)) := by
  unfold TMat.solve_unique
  rw [hA.shape.nr, hA.shape.nc]
  by_cases hmn : m < n
  · rw [if_pos hmn, Sat_ok]
    simp only [Bool.false_eq_true, false_iff, false_implies, and_true, existsUnique_iff]
    rintro ⟨h, _⟩
    have := M.rank_le_height
    omega
  · rw [if_neg hmn]
    refine (rank_sat H hm hn hA).bind fun r hr => ?_
    subst hr
    by_cases hrn : M.rank = n
    · rw [if_neg (by simpa using hrn)]
      refine (solve_full_sat H hm hn hA hrn hb hx).mono fun r hr => ⟨?_, hr.2⟩
      rw [existsUnique_iff]; simpa [hrn] using hr.1
    · rw [if_pos hrn, Sat_ok]
      simp only [Bool.false_eq_true, false_iff, false_implies, and_true, existsUnique_iff]
      rintro ⟨h, _⟩
      exact hrn h

/-! ### powers -/

theorem sqMulLoop_pow {β S : Type} [Monoid S] {mul : β → β → Res β} {rp : β → S → Prop} {g : S}
    (hmul : ∀ {a b x y}, rp a x → rp b y → (mul a b).Sat U (fun r => rp r (x * y))) :
    ∀ (k : ℕ) (rv xp : β) (a b : ℕ) (e : ℕ), e < 2 ^ k → rp rv (g ^ a) → rp xp (g ^ b) →
      (sqMulLoop mul k rv xp e).Sat U (fun r => rp r (g ^ (a + b * e)))
  | 0, rv, xp, a, b, e, he, hz, hx => by
    have : e = 0 := by simpa using he
    subst this; simpa [sqMulLoop] using hz
  | k + 1, rv, xp, a, b, e, he, hz, hx => by
    unfold sqMulLoop
    split
    · rename_i h; subst h; simpa using hz
    · have hs : (sqMulLoop.step mul rv xp e).Sat U (fun r => rp r (g ^ (a + b * (e % 2)))) := by
        unfold sqMulLoop.step
        split
        · rename_i h; rw [h, mul_one, pow_add]; exact hmul hz hx
        · rename_i h; rw [show e % 2 = 0 by omega]; simpa using hz
      refine hs.bind fun rv' h1 => ?_
      refine (hmul hx hx).bind fun xp' h2 => ?_
      rw [← pow_add] at h2
      refine (sqMulLoop_pow hmul k rv' xp' _ _ (e / 2) (by omega) h1 h2).mono fun r hr => ?_
      convert hr using 2
      rw [add_assoc, ← two_mul, mul_assoc, mul_left_comm, ← mul_add]
      congr 2; omega

theorem posexp_sat (H : EltRef U O rep) {A I : TMat α} {M : Matrix (Fin n) (Fin n) F} (hn : 0 < n) (hA : MRep rep A M) (hI : MRep rep I (1 : Matrix (Fin n) (Fin n) F))
    {e : ℕ} (he : e < 2 ^ 32) : (TMat.posexp O A e I).Sat U (fun r => MRep rep r (M ^ e)) := by
  unfold TMat.posexp
  refine (sqMulLoop_pow (g := M) (rp := fun A M => MRep rep A M) (fun ha hb => mul_sat' H hn hn hn ha hb) 32 I A 0 1 e he (by simpa using hI) (by simpa using hA)).mono
    fun r hr => by simpa using hr

theorem exp_pos_sat (H : EltRef U O rep) {A : TMat α} {M : Matrix (Fin n) (Fin n) F} (hn : 0 < n) (hA : MRep rep A M) {e : Int} (he : InInt e) (he1 : 1 ≤ e) :
    (TMat.exp O A e).Sat U (fun r => r.1 = true ∧ ∃ B, r.2 = some B ∧ MRep rep B (M ^ e.toNat)) := by
  unfold TMat.exp TMat.is_square
  rw [hA.shape.nr, hA.shape.nc]
  simp only [beq_self_eq_true, Bool.not_true, Bool.false_eq_true, if_false]
  refine (get_sat (hA.at hn hn)).bind fun a ha => ?_
  refine (H.sub ha ha).bind fun z hz => ?_
  rw [sub_self] at hz
  refine (find_one_sat H hn hn hA).bind fun o ho => ?_
  cases o with
  | none =>
    have ho : M = 0 := ho
    subst ho
    simp only
    rw [if_neg (by omega), Sat_ok]
    refine ⟨rfl, A, rfl, ?_⟩
    rw [zero_pow (by omega)]; exact hA
  | some one =>
    refine (make_I_sat hA hz ho.2).bind fun I hI => ?_
    rw [if_pos he1]
    refine (posexp_sat H hn hA hI (e := e.toNat) (by unfold InInt at he; omega)).bind fun r hr => ?_
    exact ⟨rfl, r, rfl, hr⟩

theorem exp_zero_sat (H : EltRef U O rep) {A : TMat α} {M : Matrix (Fin n) (Fin n) F} (hn : 0 < n) (hA : MRep rep A M) (hM : M ≠ 0) :
    (TMat.exp O A 0).Sat U (fun r => (r.1 = true ↔ IsUnit M) ∧ (r.1 = true → ∃ B, r.2 = some B ∧ MRep rep B (1 : Matrix (Fin n) (Fin n) F))) := by
  unfold TMat.exp TMat.is_square
  rw [hA.shape.nr, hA.shape.nc]
  simp only [beq_self_eq_true, Bool.not_true, Bool.false_eq_true, if_false]
  refine (get_sat (hA.at hn hn)).bind fun a ha => ?_
  refine (H.sub ha ha).bind fun z hz => ?_
  rw [sub_self] at hz
  refine (find_one_sat H hn hn hA).bind fun o ho => ?_
  cases o with
  | none => exact absurd ho hM
  | some one =>
    refine (make_I_sat hA hz ho.2).bind fun I hI => ?_
    rw [if_neg (by omega)]
    refine (inverse_sat H hn hA).bind fun iv hiv => ?_
    obtain ⟨b, o⟩ := iv
    obtain ⟨h1, h2⟩ := hiv
    cases b with
    | false =>
      have : ¬ IsUnit M := fun h => by simpa using h1.mpr h
      simp [this]
    | true =>
      obtain ⟨B, N, hB, _⟩ := h2 rfl
      simp only at hB; subst hB
      simp only [if_true, Sat_ok]
      exact ⟨⟨fun _ => h1.mp rfl, fun _ => by trivial⟩, fun _ => ⟨I, rfl, hI⟩⟩

theorem exp_neg_sat (H : EltRef U O rep) {A : TMat α} {M : Matrix (Fin n) (Fin n) F} (hn : 0 < n) (hA : MRep rep A M) (hM : M ≠ 0) {e : Int} (he : InInt e)
    (he1 : e < 0) (hmin : e ≠ INT_MIN) :
    (TMat.exp O A e).Sat U (fun r => (r.1 = true ↔ IsUnit M) ∧ (r.1 = true → ∃ B, r.2 = some B ∧ MRep rep B (M⁻¹ ^ (-e).toNat))) := by
  unfold TMat.exp TMat.is_square
  rw [hA.shape.nr, hA.shape.nc]
  simp only [beq_self_eq_true, Bool.not_true, Bool.false_eq_true, if_false]
  refine (get_sat (hA.at hn hn)).bind fun a ha => ?_
  refine (H.sub ha ha).bind fun z hz => ?_
  rw [sub_self] at hz
  refine (find_one_sat H hn hn hA).bind fun o ho => ?_
  cases o with
  | none => exact absurd ho hM
  | some one =>
    refine (make_I_sat hA hz ho.2).bind fun I hI => ?_
    rw [if_neg (by omega)]
    refine (inverse_sat H hn hA).bind fun iv hiv => ?_
    obtain ⟨b, o⟩ := iv
    obtain ⟨h1, h2⟩ := hiv
    cases b with
    | false =>
      have : ¬ IsUnit M := fun h => by simpa using h1.mpr h
      simp [this]
    | true =>
      obtain ⟨B, N, hB, hN, hNM, _⟩ := h2 rfl
      simp only at hB; subst hB
      dsimp only
      have hin : InInt (-e) := by unfold InInt at *; unfold INT_MIN at hmin; omega
      rw [if_neg (by omega), show ineg e = ok (-e) from chk_ok hin]
      simp only [ok_bind]
      rw [if_neg (by omega)]
      refine (posexp_sat H hn hN hI (e := (-e).toNat) (by unfold InInt at hin; omega)).bind fun r hr => ?_
      rw [Sat_ok]
      refine ⟨⟨fun _ => h1.mp rfl, fun _ => by trivial⟩, fun _ => ⟨r, rfl, ?_⟩⟩
      rwa [Matrix.inv_eq_left_inv hNM]

theorem exp_zeromat {A : TMat α} (H : EltRef U O rep) (hn : 0 < n) (hA : MRep rep A (0 : Matrix (Fin n) (Fin n) F)) {e : Int} (he : e ≤ 0) :
    (TMat.exp O A e).Throws U := by
  unfold TMat.exp TMat.is_square
  rw [hA.shape.nr, hA.shape.nc]
  simp only [beq_self_eq_true, Bool.not_true, Bool.false_eq_true, if_false]
  refine (get_sat (hA.at hn hn)).throws_bind fun a ha => ?_
  refine (H.sub ha ha).throws_bind fun z hz => ?_
  refine (find_one_sat H hn hn hA).throws_bind fun o ho => ?_
  cases o with
  | none => simp only; rw [if_pos he]; exact Or.inl rfl
  | some one => exact absurd rfl ho.1

end field
end Spffl
