/-
bit_matrix_t refines matrices over F2: construction, arithmetic, row reduction, rank, determinant, kernel.
-/
import Verif.Model.BitMatrix
import Verif.Proof.BitVector
import Verif.Proof.Kernel
import Verif.Proof.MatInverse

namespace Spffl
open Res

instance : Fact (Nat.Prime 2) := ⟨Nat.prime_two⟩

namespace BM

variable {U : Prop} {m n : ℕ}

/-- `A` holds the matrix `M`: one bit vector per row. -/
structure Rep (A : BM) (M : Matrix (Fin m) (Fin n) (ZMod 2)) : Prop where
  nr : A.num_rows = m
  nc : A.num_cols = n
  len : A.rows.length = m
  row : ∀ i : Fin m, At A.rows i (fun v => BV.Rep v (M i))

theorem Rep.at {A : BM} {M : Matrix (Fin m) (Fin n) (ZMod 2)} (h : Rep A M) {i : ℕ} (hi : i < m) :
    ∃ v, rd A.rows i = ok v ∧ BV.Rep v (M ⟨i, hi⟩) := (h.row ⟨i, hi⟩).rd

theorem Rep.setRow {A : BM} {M : Matrix (Fin m) (Fin n) (ZMod 2)} (h : Rep A M) {i : ℕ} (hi : i < m) {v : BV} {x : Fin n → ZMod 2}
    (hv : BV.Rep v x) : Rep { A with rows := A.rows.set i v } (M.updateRow ⟨i, hi⟩ x) where
  nr := h.nr
  nc := h.nc
  len := by simpa using h.len
  row := fun k => by
    by_cases hk : k = ⟨i, hi⟩
    · subst hk
      rw [Matrix.updateRow_self]
      exact at_set_self (by simpa [h.len] using hi) hv
    · rw [Matrix.updateRow_ne hk]
      exact (h.row k).congr (List.getElem?_set_ne (fun e => hk (Fin.ext e.symm)))

theorem get_rep {A : BM} {M : Matrix (Fin m) (Fin n) (ZMod 2)} (h : Rep A M) {i j : ℕ} (hi : i < m) (hj : j < n) :
    ∃ b, get A i j = ok b ∧ b2 b = M ⟨i, hi⟩ ⟨j, hj⟩ := by
  obtain ⟨v, h1, h2⟩ := h.at hi
  unfold get
  rw [h1, ok_bind]
  exact BV.get_rep h2 hj

/-- the matrix with one entry replaced -/
def updEntry (M : Matrix (Fin m) (Fin n) (ZMod 2)) (i : Fin m) (j : Fin n) (x : ZMod 2) : Matrix (Fin m) (Fin n) (ZMod 2) :=
  M.updateRow i (Function.update (M i) j x)

theorem updEntry_apply (M : Matrix (Fin m) (Fin n) (ZMod 2)) (i : Fin m) (j : Fin n) (x : ZMod 2) (a : Fin m) (b : Fin n) :
    updEntry M i j x a b = if a = i ∧ b = j then x else M a b := by
  unfold updEntry
  by_cases ha : a = i
  · subst ha
    rw [Matrix.updateRow_self]
    by_cases hb : b = j
    · subst hb; simp
    · simp [hb]
  · rw [Matrix.updateRow_ne ha]; simp [ha]

theorem put_rep {A : BM} {M : Matrix (Fin m) (Fin n) (ZMod 2)} (h : Rep A M) {i j : ℕ} (hi : i < m) (hj : j < n) (b : Bool) :
    ∃ r, put A i j b = ok r ∧ Rep r (updEntry M ⟨i, hi⟩ ⟨j, hj⟩ (b2 b)) := by
  obtain ⟨v, h1, h2⟩ := h.at hi
  obtain ⟨v', h3, h4⟩ := BV.set_rep h2 hj b
  unfold put
  rw [h1, ok_bind, h3, ok_bind, wr_ok (by rw [h.len]; exact hi)]
  exact ⟨_, rfl, h.setRow hi h4⟩

theorem put_throw {A : BM} {M : Matrix (Fin m) (Fin n) (ZMod 2)} (h : Rep A M) {i j : ℕ} (hi : i < m) (hj : n ≤ j) (b : Bool) :
    put A i j b = throw := by
  obtain ⟨v, h1, h2⟩ := h.at hi
  unfold put
  rw [h1, ok_bind, BV.set_throw h2 hj]; rfl

theorem cput_rep {A : BM} {M : Matrix (Fin m) (Fin n) (ZMod 2)} (h : Rep A M) {i j : ℕ} (hi : i < m) (hj : j < n) (b : Bool) :
    ∃ r, cput A i j b = ok r ∧ Rep r (updEntry M ⟨i, hi⟩ ⟨j, hj⟩ (b2 b)) := by
  unfold cput
  rw [if_pos (by rw [h.nr]; exact hi)]
  exact put_rep h hi hj b

theorem ctoggle_rep {A : BM} {M : Matrix (Fin m) (Fin n) (ZMod 2)} (h : Rep A M) {i j : ℕ} (hi : i < m) (hj : j < n) :
    ∃ r, ctoggle A i j = ok r ∧ Rep r (updEntry M ⟨i, hi⟩ ⟨j, hj⟩ (M ⟨i, hi⟩ ⟨j, hj⟩ + 1)) := by
  obtain ⟨v, h1, h2⟩ := h.at hi
  obtain ⟨v', h3, h4⟩ := BV.toggle_rep h2 hj
  unfold ctoggle
  rw [if_pos (by rw [h.nr]; exact hi), h1]
  simp only [ok_bind]
  rw [h3, ok_bind, wr_ok (by rw [h.len]; exact hi)]
  exact ⟨_, rfl, h.setRow hi h4⟩

/-! ### storing whole rows -/

/-- row slots that can take a vector of `n` bits -/
def Slots (rs : List BV) (m n : ℕ) : Prop :=
  rs.length = m ∧ ∀ i, i < m → At rs i (fun v => v.null = true ∨ BV.nwords n ≤ v.words.length)

theorem slots_empty (m n : ℕ) : Slots (List.replicate m BV.empty) m n :=
  ⟨by simp, fun i hi => ⟨BV.empty, by simp [hi], Or.inl rfl⟩⟩

theorem Rep.slots {A : BM} {M : Matrix (Fin m) (Fin n) (ZMod 2)} (h : Rep A M) : Slots A.rows m n :=
  ⟨h.len, fun i hi => (h.row ⟨i, hi⟩).mono fun v hv => Or.inr hv.len⟩

/-- A loop that computes a vector for each row and assigns it. -/
theorem assignRows_sat {f : ℕ → Res BV} {M : Matrix (Fin m) (Fin n) (ZMod 2)} {rs : List BV} (hrs : Slots rs m n)
    (hf : ∀ i (hi : i < m), (f i).Sat U (fun v => BV.Rep v (M ⟨i, hi⟩))) :
    (forUp 0 m rs fun i rs => do let v ← f i; assignRow rs i v).Sat U (fun r => r.length = m ∧
      ∀ i : Fin m, At r i (fun v => BV.Rep v (M i))) := by
  refine (forUp_sat (fun i s => Slots s m n ∧ ∀ k : Fin m, (k : ℕ) < i → At s k (fun v => BV.Rep v (M k))) (Nat.zero_le m)
    ⟨hrs, fun k h => by omega⟩ ?_).mono fun r ⟨h1, h2⟩ => ⟨h1.1, fun i => h2 i i.2⟩
  intro i s _ hi ⟨h1, h2⟩
  refine (hf i hi).bind fun v hv => ?_
  obtain ⟨o, ho, hs⟩ := (h1.2 i hi).rd
  obtain ⟨w, hw, hw2⟩ := BV.assign_rep hv hs
  unfold assignRow
  rw [ho, ok_bind, hw, ok_bind, wr_ok (by rw [h1.1]; exact hi), Sat_ok]
  refine ⟨⟨by simpa using h1.1, fun k hk => ?_⟩, fun k hk => ?_⟩
  · by_cases hki : k = i
    · subst hki; exact at_set_self (by rw [h1.1]; exact hk) (Or.inr hw2.len)
    · exact (h1.2 k hk).congr (List.getElem?_set_ne (Ne.symm hki))
  · by_cases hki : (k : ℕ) = i
    · subst hki; exact at_set_self (by rw [h1.1]; exact hi) hw2
    · exact (h2 k (by omega)).congr (List.getElem?_set_ne (Ne.symm hki))

theorem _root_.Spffl.Res.sat_of_ok {α : Type} {r : Res α} {P : α → Prop} (h : ∃ a, r = ok a ∧ P a) : r.Sat U P := by
  obtain ⟨a, rfl, h⟩ := h; exact h

theorem ok_of_sat {α : Type} {r : Res α} {P : α → Prop} (h : r.Sat False P) : ∃ a, r = ok a ∧ P a := by
  obtain ⟨a, h1, h2⟩ := sat_false.mp h
  exact ⟨a, h1, h2⟩

theorem alloc_rep (hm : 0 < m) (hn : 0 < n) : ∃ A, alloc m n = ok A ∧ Rep A (0 : Matrix (Fin m) (Fin n) (ZMod 2)) := by
  unfold alloc
  rw [if_neg (by omega)]
  simp only [Int.toNat_natCast]
  obtain ⟨rs, h1, h2, h3⟩ := ok_of_sat (assignRows_sat (f := fun _ => BV.alloc (n : ℤ)) (M := (0 : Matrix (Fin m) (Fin n) (ZMod 2)))
    (slots_empty m n) fun i hi => sat_of_ok (BV.alloc_ok hn))
  rw [h1]
  exact ⟨_, rfl, rfl, rfl, h2, h3⟩

theorem fill_sat {tm : TrimMask} (H : ∀ k, (tm k).Sat U fun _ => True) (hm : 0 < m) (hn : 0 < n) :
    (fill tm false m n).Sat U (fun A => Rep A (0 : Matrix (Fin m) (Fin n) (ZMod 2))) := by
  unfold fill
  rw [if_neg (by omega)]
  simp only [Int.toNat_natCast]
  refine (assignRows_sat (f := fun _ => BV.fill tm false (n : ℤ)) (M := (0 : Matrix (Fin m) (Fin n) (ZMod 2)))
    (slots_empty m n) fun i hi => BV.fill_zero H hn).bind fun rs hrs => ?_
  exact ⟨rfl, rfl, hrs.1, hrs.2⟩

theorem copy_rep {A : BM} {M : Matrix (Fin m) (Fin n) (ZMod 2)} (h : Rep A M) : ∃ B, copy A = ok B ∧ Rep B M := by
  unfold copy
  rw [h.nr]
  obtain ⟨rs, h1, h2, h3⟩ := ok_of_sat (assignRows_sat (f := fun i => rd A.rows i) (M := M)
    (slots_empty m n) fun i hi => sat_of_ok (h.at hi))
  rw [h1]
  exact ⟨_, rfl, rfl, h.nc, h2, h3⟩

/-- Assignment of a matrix to any matrix object whose rows, if its shape is the same, have their storage. -/
theorem assign_rep {A B : BM} {M : Matrix (Fin m) (Fin n) (ZMod 2)} (h : Rep A M) (hn : 0 < n)
    (hB : B.num_rows = m → B.num_cols = n → Slots B.rows m n) :
    ∃ C, assign B A = ok C ∧ Rep C M := by
  unfold assign
  rw [h.nr, h.nc]
  have key : ∃ base, (if B.num_rows = m ∧ B.num_cols = n then ok B.rows
    else forUp 0 m (List.replicate m BV.empty) fun i rs => do
      let v ← BV.alloc n
      assignRow rs i v) = ok base ∧ Slots base m n := by
    by_cases hc : B.num_rows = m ∧ B.num_cols = n
    · rw [if_pos hc]; exact ⟨_, rfl, hB hc.1 hc.2⟩
    · rw [if_neg hc]
      obtain ⟨rs, h1, h2, h3⟩ := ok_of_sat (assignRows_sat (f := fun _ => BV.alloc (n : ℤ)) (M := (0 : Matrix (Fin m) (Fin n) (ZMod 2)))
        (slots_empty m n) fun i hi => sat_of_ok (BV.alloc_ok hn))
      exact ⟨rs, h1, h2, fun i hi => (h3 ⟨i, hi⟩).mono fun v hv => Or.inr hv.len⟩
  obtain ⟨base, e1, e2⟩ := key
  rw [e1, ok_bind]
  obtain ⟨rs, h1, h2, h3⟩ := ok_of_sat (assignRows_sat (f := fun i => rd A.rows i) (M := M) e2 fun i hi => sat_of_ok (h.at hi))
  rw [h1]
  exact ⟨_, rfl, rfl, rfl, h2, h3⟩

theorem add_rep {A B : BM} {M N : Matrix (Fin m) (Fin n) (ZMod 2)} (hm : 0 < m) (hn : 0 < n) (hA : Rep A M) (hB : Rep B N) :
    ∃ C, add A B = ok C ∧ Rep C (M + N) := by
  unfold add check_dims
  rw [hA.nr, hA.nc, hB.nr, hB.nc, if_neg (by simp), ok_bind]
  obtain ⟨Z, z1, z2⟩ := alloc_rep hm hn
  rw [z1, ok_bind]
  have := assignRows_sat (U := False) (f := fun i => do let x ← rd A.rows i; let y ← rd B.rows i; BV.add x y) (M := M + N) z2.slots fun i hi => by
    obtain ⟨v, h1, h2⟩ := hA.at hi
    obtain ⟨w, h3, h4⟩ := hB.at hi
    rw [h1, h3]
    exact sat_of_ok (BV.add_rep hn h2 h4)
  obtain ⟨rs, h1, h2, h3⟩ := ok_of_sat this
  have e : (forUp 0 m Z.rows fun i rs => do
      let x ← rd A.rows i
      let y ← rd B.rows i
      let z ← BV.add x y
      assignRow rs i z) = ok rs := by
    rw [← h1]
    congr 1
    funext i rs
    simp only [bind_assoc]
  rw [e]
  exact ⟨_, rfl, z2.nr, z2.nc, h2, h3⟩

/-! ### entry by entry loops -/

/-- Two nested loops writing entries: what has been written so far. -/
theorem fill2_sat {body : ℕ → ℕ → BM → Res BM} {M0 T : Matrix (Fin m) (Fin n) (ZMod 2)} {A : BM} (hA : Rep A M0)
    (hb : ∀ i j (hi : i < m) (hj : j < n) s M, Rep s M → M ⟨i, hi⟩ ⟨j, hj⟩ = M0 ⟨i, hi⟩ ⟨j, hj⟩ →
      (body i j s).Sat U (fun r => Rep r (updEntry M ⟨i, hi⟩ ⟨j, hj⟩ (T ⟨i, hi⟩ ⟨j, hj⟩)))) :
    (forUp 0 m A fun i s => forUp 0 n s fun j s => body i j s).Sat U (fun r => Rep r T) := by
  refine (forUp_sat (fun i s => Rep s (Matrix.of fun (a : Fin m) b => if (a : ℕ) < i then T a b else M0 a b)) (Nat.zero_le m)
    (cast (by congr 1) hA) ?_).mono fun r hr => cast (by congr 1; ext a b; simp) hr
  intro i s _ hi hs
  refine (forUp_sat (fun j s => Rep s (Matrix.of fun (a : Fin m) (b : Fin n) => if (a : ℕ) < i ∨ (a : ℕ) = i ∧ (b : ℕ) < j then T a b else M0 a b)) (Nat.zero_le n)
    (cast (by congr 1; ext a b; simp) hs) ?_).mono fun r hr => cast (by
      congr 1; ext a b; simp only [Matrix.of_apply]; congr 1
      have := b.2; simp only [eq_iff_iff]; omega) hr
  intro j s _ hj hs
  refine (hb i j hi hj s _ hs (by simp)).mono fun r hr => cast ?_ hr
  congr 1
  ext a b
  rw [updEntry_apply]
  simp only [Matrix.of_apply, Fin.ext_iff]
  by_cases h1 : (a : ℕ) = i ∧ (b : ℕ) = j
  · have e1 : a = ⟨i, hi⟩ := Fin.ext h1.1
    have e2 : b = ⟨j, hj⟩ := Fin.ext h1.2
    subst e1; subst e2; simp
  · rw [if_neg h1]
    congr 1
    simp only [eq_iff_iff]; omega

theorem transpose_rep {A : BM} {M : Matrix (Fin m) (Fin n) (ZMod 2)} (hm : 0 < m) (hn : 0 < n) (hA : Rep A M) :
    ∃ C, transpose A = ok C ∧ Rep C M.transpose := by
  unfold transpose
  rw [hA.nr, hA.nc]
  obtain ⟨Z, z1, z2⟩ := alloc_rep hn hm
  rw [z1, ok_bind]
  apply ok_of_sat
  refine (forUp_sat (fun i s => Rep s (Matrix.of fun (a : Fin n) (b : Fin m) => if (b : ℕ) < i then M b a else 0)) (Nat.zero_le m)
    (cast (by congr 1) z2) ?_).mono fun r hr => cast (by congr 1; ext a b; simp) hr
  intro i s _ hi hs
  refine (forUp_sat (fun j s => Rep s (Matrix.of fun (a : Fin n) (b : Fin m) => if (b : ℕ) < i ∨ (b : ℕ) = i ∧ (a : ℕ) < j then M b a else 0)) (Nat.zero_le n)
    (cast (by congr 1; ext a b; simp) hs) ?_).mono fun r hr => cast (by
      congr 1; ext a b; simp only [Matrix.of_apply]; congr 1
      have := a.2; simp only [eq_iff_iff]; omega) hr
  intro j s _ hj hs
  obtain ⟨b, h1, h2⟩ := get_rep hA hi hj
  rw [h1, ok_bind]
  obtain ⟨r, h3, h4⟩ := put_rep hs hj hi b
  rw [h3, Sat_ok]
  refine cast ?_ h4
  congr 1
  ext a b
  rw [updEntry_apply]
  simp only [Matrix.of_apply, Fin.ext_iff]
  by_cases h1 : (a : ℕ) = j ∧ (b : ℕ) = i
  · have e1 : a = ⟨j, hj⟩ := Fin.ext h1.1
    have e2 : b = ⟨i, hi⟩ := Fin.ext h1.2
    subst e1; subst e2; simp [h2]
  · rw [if_neg h1]
    congr 1
    simp only [eq_iff_iff]; omega

theorem mul_sat {tm : TrimMask} (H : ∀ k, (tm k).Sat U fun _ => True) {l : ℕ} {A B : BM} {M : Matrix (Fin m) (Fin l) (ZMod 2)}
    {N : Matrix (Fin l) (Fin n) (ZMod 2)} (hm : 0 < m) (hl : 0 < l) (hn : 0 < n) (hA : Rep A M) (hB : Rep B N) :
    (mul tm A B).Sat U (fun C => Rep C (M * N)) := by
  unfold mul
  rw [hA.nr, hA.nc, hB.nr, hB.nc, if_neg (by simp)]
  refine (fill_sat H hm hn).bind fun Z hZ => ?_
  obtain ⟨T, t1, t2⟩ := transpose_rep hl hn hB
  rw [t1]
  simp only [ok_bind]
  rw [t2.nr]
  refine fill2_sat (body := fun i j s => do
      let x ← rd A.rows i
      let y ← rd T.rows j
      let d ← BV.dot x y
      if d then cput s i j true else ok s) hZ fun i j hi hj s K hs hK => ?_
  obtain ⟨x, x1, x2⟩ := hA.at hi
  obtain ⟨y, y1, y2⟩ := t2.at hj
  obtain ⟨d, d1, d2⟩ := BV.dot_rep x2 y2
  rw [x1, ok_bind, y1, ok_bind, d1, ok_bind]
  have e : (M * N) ⟨i, hi⟩ ⟨j, hj⟩ = b2 d := by rw [d2, Matrix.mul_apply]; rfl
  rw [e]
  cases d with
  | true =>
    simp only [if_true]
    exact sat_of_ok (cput_rep hs hi hj true)
  | false =>
    simp only [Bool.false_eq_true, if_false, Sat_ok]
    refine cast ?_ hs
    congr 1
    ext a b
    rw [updEntry_apply]
    split
    · rename_i h; rw [h.1, h.2, hK]; rfl
    · rfl

theorem mulVec_sat {tm : TrimMask} (H : ∀ k, (tm k).Sat U fun _ => True) {A : BM} {v : BV} {M : Matrix (Fin m) (Fin n) (ZMod 2)}
    {x : Fin n → ZMod 2} (hm : 0 < m) (hA : Rep A M) (hv : BV.Rep v x) :
    (mulVec tm A v).Sat U (fun r => BV.Rep r (M.mulVec x)) := by
  unfold mulVec
  rw [hA.nr, hA.nc, hv.nb, if_neg (by simp)]
  refine (BV.fill_zero H hm).bind fun Z hZ => ?_
  refine (forUp_sat (fun i s => BV.Rep s (fun (a : Fin m) => if (a : ℕ) < i then M.mulVec x a else 0)) (Nat.zero_le m)
    (cast (by congr 1) hZ) ?_).mono fun r hr => cast (by congr 1; ext a; simp) hr
  intro i s _ hi hs
  refine (forUp_sat (fun j s => BV.Rep s (fun (a : Fin m) => if (a : ℕ) < i then M.mulVec x a else
      if (a : ℕ) = i then ∑ b : Fin n, (if (b : ℕ) < j then M a b * x b else 0) else 0)) (Nat.zero_le n)
    (cast (by congr 1; ext a; simp) hs) ?_).mono fun r hr => cast (by
      congr 1; ext a
      by_cases h1 : (a : ℕ) < i
      · rw [if_pos h1, if_pos (by omega)]
      · rw [if_neg h1]
        by_cases h2 : (a : ℕ) = i
        · rw [if_pos h2, if_pos (by omega)]; simp [Matrix.mulVec, dotProduct]
        · rw [if_neg h2, if_neg (by omega)]) hr
  intro j s _ hj hs
  obtain ⟨c, c1, c2⟩ := BV.get_rep hs hi
  obtain ⟨a, a1, a2⟩ := get_rep hA hi hj
  obtain ⟨b, b1, b2'⟩ := BV.get_rep hv hj
  rw [c1, ok_bind, a1, ok_bind, b1, ok_bind]
  obtain ⟨r, r1, r2⟩ := BV.set_rep hs hi (c ^^ (a && b))
  rw [r1, Sat_ok]
  refine cast ?_ r2
  congr 1
  ext k
  by_cases hk : k = ⟨i, hi⟩
  · subst hk
    rw [Function.update_self, b2_xor, b2_and, c2, a2, b2']
    simp only [lt_irrefl, if_false, if_true]
    have : ∀ b : Fin n, (if (b : ℕ) < j + 1 then M ⟨i, hi⟩ b * x b else 0) = (if (b : ℕ) < j then M ⟨i, hi⟩ b * x b else 0) +
        if b = ⟨j, hj⟩ then M ⟨i, hi⟩ b * x b else 0 := by
      intro b
      simp only [Fin.ext_iff]
      by_cases h1 : (b : ℕ) < j
      · rw [if_pos h1, if_pos (by omega), if_neg (by omega), add_zero]
      · by_cases h2 : (b : ℕ) = j
        · rw [if_neg h1, if_pos (by omega), if_pos h2, zero_add]
        · rw [if_neg h1, if_neg (by omega), if_neg h2, zero_add]
    simp only [this, Finset.sum_add_distrib, Finset.sum_ite_eq', Finset.mem_univ, if_true]
  · rw [Function.update_of_ne hk]
    have : (k : ℕ) ≠ i := fun h => hk (Fin.ext h)
    simp only [this, if_false]

theorem addScalar_rep {A : BM} {M : Matrix (Fin n) (Fin n) (ZMod 2)} (hA : Rep A M) (b : Bool) :
    ∃ C, addScalar A b = ok C ∧ Rep C (M + Matrix.diagonal fun _ => b2 b) := by
  unfold addScalar is_square
  rw [hA.nr, hA.nc]
  simp only [beq_self_eq_true, Bool.not_true, Bool.false_eq_true, if_false]
  obtain ⟨C, c1, c2⟩ := copy_rep hA
  rw [c1, ok_bind]
  cases b with
  | false => simp only [Bool.false_eq_true, if_false]; exact ⟨C, rfl, cast (by congr 1; ext a b; by_cases h : a = b <;> simp [Matrix.diagonal_apply]) c2⟩
  | true =>
    simp only [if_true]
    apply ok_of_sat
    refine (forUp_sat (fun i s => Rep s (Matrix.of fun (a b : Fin n) => if a = b ∧ (a : ℕ) < i then M a b + 1 else M a b)) (Nat.zero_le n)
      (cast (by congr 1; ext a b; simp) c2) ?_).mono fun r hr => cast (by congr 1; ext a b; by_cases h : a = b <;> simp [Matrix.diagonal_apply, h]) hr
    intro i s _ hi hs
    obtain ⟨r, r1, r2⟩ := ctoggle_rep hs hi hi
    rw [r1, Sat_ok]
    refine cast ?_ r2
    congr 1
    ext a b
    rw [updEntry_apply]
    simp only [Matrix.of_apply, Fin.ext_iff, lt_irrefl, and_false, if_false]
    by_cases h1 : (a : ℕ) = i ∧ (b : ℕ) = i
    · have e1 : a = ⟨i, hi⟩ := Fin.ext h1.1
      have e2 : b = ⟨i, hi⟩ := Fin.ext h1.2
      subst e1; subst e2; simp
    · rw [if_neg h1]
      congr 1
      simp only [eq_iff_iff]; omega

theorem make_I_rep {A : BM} {M : Matrix (Fin n) (Fin n) (ZMod 2)} (hA : Rep A M) :
    ∃ C, make_I A = ok C ∧ Rep C (1 : Matrix (Fin n) (Fin n) (ZMod 2)) := by
  unfold make_I is_square
  rw [hA.nr, hA.nc]
  simp only [beq_self_eq_true, Bool.not_true, Bool.false_eq_true, if_false]
  obtain ⟨C, c1, c2⟩ := copy_rep hA
  rw [c1, ok_bind]
  apply ok_of_sat
  refine fill2_sat (body := fun i j s => put s i j (i = j)) c2 fun i j hi hj s K hs hK => ?_
  have e : (1 : Matrix (Fin n) (Fin n) (ZMod 2)) ⟨i, hi⟩ ⟨j, hj⟩ = b2 (decide (i = j)) := by
    rw [Matrix.one_apply]
    by_cases h : i = j <;> simp [h]
  rw [e]
  exact sat_of_ok (put_rep hs hi hj _)

theorem isZeroLoop_rep {A : BM} {M : Matrix (Fin m) (Fin n) (ZMod 2)} (hA : Rep A M) : ∀ k i, k + i = m →
    ∃ b, isZeroLoop A k i = ok b ∧ (b = true ↔ ∀ a : Fin m, i ≤ (a : ℕ) → M a = 0)
  | 0, i, h => ⟨true, rfl, by simp only [true_iff]; intro a ha; have := a.2; omega⟩
  | k + 1, i, h => by
    unfold isZeroLoop
    have hi : i < m := by omega
    obtain ⟨v, v1, v2⟩ := hA.at hi
    obtain ⟨z, z1, z2⟩ := BV.is_zero_rep v2
    rw [v1, ok_bind, z1, ok_bind]
    cases z with
    | false =>
      refine ⟨false, rfl, ?_⟩
      simp only [Bool.false_eq_true, false_iff] at z2 ⊢
      exact fun hh => z2 (hh ⟨i, hi⟩ le_rfl)
    | true =>
      simp only [true_iff] at z2
      obtain ⟨b, b1, b2⟩ := isZeroLoop_rep hA k (i + 1) (by omega)
      refine ⟨b, b1, b2.trans ⟨fun hh a ha => ?_, fun hh a ha => hh a (by omega)⟩⟩
      by_cases hai : (a : ℕ) = i
      · rw [show a = ⟨i, hi⟩ from Fin.ext hai]; exact z2
      · exact hh a (by omega)

theorem is_zero_rep {A : BM} {M : Matrix (Fin m) (Fin n) (ZMod 2)} (hA : Rep A M) : ∃ b, is_zero A = ok b ∧ (b = true ↔ M = 0) := by
  unfold is_zero
  rw [hA.nr]
  obtain ⟨b, h1, h2⟩ := isZeroLoop_rep hA m 0 rfl
  exact ⟨b, h1, h2.trans ⟨fun h => funext fun a => h a (by omega), fun h a _ => by rw [h]; rfl⟩⟩

theorem diagOne_rep {A : BM} {M : Matrix (Fin n) (Fin n) (ZMod 2)} (hA : Rep A M) : ∀ k i, k + i = n →
    ∃ b, diagOne A k i = ok b ∧ (b = true ↔ ∀ a : Fin n, i ≤ (a : ℕ) → M a a = 1)
  | 0, i, h => ⟨true, rfl, by simp only [true_iff]; intro a ha; have := a.2; omega⟩
  | k + 1, i, h => by
    unfold diagOne
    have hi : i < n := by omega
    obtain ⟨z, z1, z2⟩ := get_rep hA hi hi
    rw [z1, ok_bind]
    cases z with
    | false =>
      refine ⟨false, rfl, ?_⟩
      simp only [Bool.false_eq_true, false_iff]
      intro hh
      have := hh ⟨i, hi⟩ le_rfl
      rw [← z2] at this; simp at this
    | true =>
      obtain ⟨b, b1, b2⟩ := diagOne_rep hA k (i + 1) (by omega)
      refine ⟨b, b1, b2.trans ⟨fun hh a ha => ?_, fun hh a ha => hh a (by omega)⟩⟩
      by_cases hai : (a : ℕ) = i
      · rw [show a = ⟨i, hi⟩ from Fin.ext hai]; exact z2.symm
      · exact hh a (by omega)

theorem offRow_rep {A : BM} {M : Matrix (Fin n) (Fin n) (ZMod 2)} (hA : Rep A M) {i : ℕ} (hi : i < n) : ∀ k j, k + j = n →
    ∃ b, offRow A i k j = ok b ∧ (b = true ↔ ∀ a : Fin n, j ≤ (a : ℕ) → (a : ℕ) ≠ i → M ⟨i, hi⟩ a = 0)
  | 0, j, h => ⟨true, rfl, by simp only [true_iff]; intro a ha; have := a.2; omega⟩
  | k + 1, j, h => by
    unfold offRow
    have hj : j < n := by omega
    obtain ⟨b, b1, b2'⟩ := offRow_rep hA hi k (j + 1) (by omega)
    by_cases hji : j = i
    · rw [if_pos hji]
      exact ⟨b, b1, b2'.trans ⟨fun hh a ha hne => hh a (by omega) hne, fun hh a ha => hh a (by omega)⟩⟩
    rw [if_neg hji]
    obtain ⟨z, z1, z2⟩ := get_rep hA hi hj
    rw [z1, ok_bind]
    cases z with
    | true =>
      refine ⟨false, rfl, ?_⟩
      simp only [Bool.false_eq_true, false_iff]
      intro hh
      have := hh ⟨j, hj⟩ le_rfl hji
      rw [← z2] at this; simp at this
    | false =>
      refine ⟨b, b1, b2'.trans ⟨fun hh a ha hne => ?_, fun hh a ha => hh a (by omega)⟩⟩
      by_cases hai : (a : ℕ) = j
      · rw [show a = ⟨j, hj⟩ from Fin.ext hai]; exact z2.symm
      · exact hh a (by omega) hne

theorem offDiag_rep {A : BM} {M : Matrix (Fin n) (Fin n) (ZMod 2)} (hA : Rep A M) : ∀ k i, k + i = n →
    ∃ b, offDiag A k i = ok b ∧ (b = true ↔ ∀ a c : Fin n, i ≤ (a : ℕ) → c ≠ a → M a c = 0)
  | 0, i, h => ⟨true, rfl, by simp only [true_iff]; intro a _ ha; have := a.2; omega⟩
  | k + 1, i, h => by
    unfold offDiag
    have hi : i < n := by omega
    rw [hA.nc]
    obtain ⟨z, z1, z2⟩ := offRow_rep hA hi n 0 rfl
    rw [z1, ok_bind]
    cases z with
    | false =>
      refine ⟨false, rfl, ?_⟩
      simp only [Bool.false_eq_true, false_iff] at z2 ⊢
      exact fun hh => z2 fun a _ hne => hh ⟨i, hi⟩ a le_rfl (fun h => hne (by rw [h]))
    | true =>
      simp only [true_iff] at z2
      obtain ⟨b, b1, b2⟩ := offDiag_rep hA k (i + 1) (by omega)
      refine ⟨b, b1, b2.trans ⟨fun hh a c ha hne => ?_, fun hh a c ha => hh a c (by omega)⟩⟩
      by_cases hai : (a : ℕ) = i
      · have e : a = ⟨i, hi⟩ := Fin.ext hai
        subst e
        exact z2 c (by omega) fun h => hne (Fin.ext h)
      · exact hh a c (by omega) hne

theorem is_I_rep {A : BM} {M : Matrix (Fin n) (Fin n) (ZMod 2)} (hA : Rep A M) :
    ∃ b, is_I A = ok b ∧ (b = true ↔ M = 1) := by
  unfold is_I is_square
  rw [hA.nr, hA.nc]
  simp only [beq_self_eq_true, Bool.not_true, Bool.false_eq_true, if_false]
  obtain ⟨d, d1, d2⟩ := diagOne_rep hA n 0 rfl
  rw [d1, ok_bind]
  cases d with
  | false =>
    refine ⟨false, rfl, ?_⟩
    simp only [Bool.false_eq_true, false_iff] at d2 ⊢
    exact fun h => d2 fun a _ => by rw [h]; simp
  | true =>
    simp only [true_iff] at d2
    obtain ⟨b, b1, b2⟩ := offDiag_rep hA n 0 rfl
    refine ⟨b, b1, b2.trans ⟨fun h => ?_, fun h a c _ hne => by rw [h, Matrix.one_apply_ne (Ne.symm hne)]⟩⟩
    ext a c
    by_cases hac : a = c
    · subst hac; rw [Matrix.one_apply_eq]; exact d2 a (by omega)
    · rw [Matrix.one_apply_ne hac]; exact h a c (by omega) (Ne.symm hac)

/-! ### row reduction -/

theorem swap_rep {A : BM} {M : Matrix (Fin m) (Fin n) (ZMod 2)} (hA : Rep A M) {a b : ℕ} (ha : a < m) (hb : b < m) :
    ∃ B, swap A a b = ok B ∧ Rep B (M.submatrix (Equiv.swap ⟨a, ha⟩ ⟨b, hb⟩) id) := by
  unfold swap
  obtain ⟨x, x1, x2⟩ := hA.at ha
  obtain ⟨y, y1, y2⟩ := hA.at hb
  obtain ⟨xy, p1, p2, p3⟩ := BV.ptrswap_rep x2 y2
  rw [x1, ok_bind, y1, ok_bind, p1, ok_bind, wr_ok (by rw [hA.len]; exact ha)]
  simp only [ok_bind]
  rw [wr_ok (by simpa [hA.len] using hb)]
  refine ⟨_, rfl, cast ?_ ((hA.setRow ha p2).setRow hb p3)⟩
  congr 1
  ext i j
  simp only [Matrix.submatrix_apply, id_eq]
  by_cases hib : i = ⟨b, hb⟩
  · subst hib; simp
  · rw [Matrix.updateRow_ne hib]
    by_cases hia : i = ⟨a, ha⟩
    · subst hia; simp
    · rw [Matrix.updateRow_ne hia, Equiv.swap_apply_of_ne_of_ne hia hib]

theorem findPivot_rep {A : BM} {M : Matrix (Fin m) (Fin n) (ZMod 2)} (hA : Rep A M) {col : ℕ} (hc : col < n) :
    ∀ k p, k + p = m → ∃ r, findPivot A col k p = ok r ∧ match r with
      | none => ∀ i : Fin m, p ≤ (i : ℕ) → M i ⟨col, hc⟩ = 0
      | some q => p ≤ q ∧ ∃ hq : q < m, M ⟨q, hq⟩ ⟨col, hc⟩ ≠ 0
  | 0, p, h => ⟨none, rfl, fun i hi => by have := i.2; omega⟩
  | k + 1, p, h => by
    unfold findPivot
    have hp : p < m := by omega
    obtain ⟨v, v1, v2⟩ := hA.at hp
    obtain ⟨z, z1, z2⟩ := BV.getBit_rep v2 hc
    rw [v1, ok_bind, z1, ok_bind]
    cases z with
    | true => exact ⟨_, rfl, le_rfl, hp, by rw [← z2]; simp⟩
    | false =>
      obtain ⟨r, r1, r2⟩ := findPivot_rep hA hc k (p + 1) (by omega)
      refine ⟨r, r1, ?_⟩
      cases r with
      | none =>
        intro i hi
        by_cases h' : p + 1 ≤ (i : ℕ)
        · exact r2 i h'
        · have : i = ⟨p, hp⟩ := Fin.ext (by simp; omega)
          rw [this, ← z2]; rfl
      | some q => exact ⟨by have := r2.1; omega, r2.2⟩

theorem pivotSwap_rep {A : BM} {M0 M : Matrix (Fin m) (Fin n) (ZMod 2)} (hA : Rep A M) (hR : RowEq M0 M 1) {top piv left : ℕ} {p : ℕ → ℕ}
    (he : Ech M top left p) (ht : top < m) (hp : piv < m) (htp : top ≤ piv) (hl : left < n) (hne : M ⟨piv, hp⟩ ⟨left, hl⟩ ≠ 0) :
    ∃ B, pivotSwap A top piv = ok B ∧ ∃ M', Rep B M' ∧ RowEq M0 M' 1 ∧ Ech M' top left p ∧ M' ⟨top, ht⟩ ⟨left, hl⟩ ≠ 0 := by
  unfold pivotSwap
  by_cases heq : top = piv
  · subst heq
    rw [if_neg (by simp)]
    exact ⟨A, rfl, M, hA, hR, he, hne⟩
  · rw [if_pos heq]
    obtain ⟨B, b1, b2⟩ := swap_rep hA ht hp
    rw [b1]
    have hR' := hR.swap (i := ⟨top, ht⟩) (k := ⟨piv, hp⟩) (by simpa [Fin.ext_iff] using heq)
    rw [show (1 : ZMod 2) * (0 - 1) = 1 by decide] at hR'
    refine ⟨B, rfl, _, b2, hR', he.change (fun i hi => ?_) (fun i j hi hj => ?_), ?_⟩
    · ext j
      simp only [Matrix.submatrix_apply, id_eq]
      rw [Equiv.swap_apply_of_ne_of_ne (by rintro rfl; simp at hi) (by rintro rfl; simp at hi; omega)]
    · simp only [Matrix.submatrix_apply, id_eq]
      refine he.below _ _ ?_ hj
      by_cases h1 : i = ⟨top, ht⟩
      · subst h1; simpa using htp
      · by_cases h2 : i = ⟨piv, hp⟩
        · subst h2; simp
        · rw [Equiv.swap_apply_of_ne_of_ne h1 h2]; exact hi
    · simpa using hne

theorem clearBelow_rep {A : BM} {M0 M : Matrix (Fin m) (Fin n) (ZMod 2)} (hA : Rep A M) (hR : RowEq M0 M 1) {top left : ℕ} {p : ℕ → ℕ}
    (he : Ech M top left p) (ht : top < m) (hl : left < n) (h1 : M ⟨top, ht⟩ ⟨left, hl⟩ = 1) :
    ∃ B, clearBelow A top left = ok B ∧ ∃ M', Rep B M' ∧ RowEq M0 M' 1 ∧ Ech M' (top + 1) (left + 1) (Function.update p top left) := by
  unfold clearBelow
  rw [hA.nr]
  apply ok_of_sat
  refine (forUp_sat (fun c A => ∃ M', Rep A M' ∧ RowEq M0 M' 1 ∧ Ech M' top left p ∧ M' ⟨top, ht⟩ ⟨left, hl⟩ = 1 ∧
    ∀ i : Fin m, top < (i : ℕ) → (i : ℕ) < c → M' i ⟨left, hl⟩ = 0) (by omega) ⟨M, hA, hR, he, h1, fun i h h' => by omega⟩ ?_).mono
    fun r ⟨M', g1, g2, g3, g4, g5⟩ => ⟨M', g1, g2, g3.advance ht hl g4 fun i hi => g5 i hi i.2⟩
  intro c A hc1 hc2 ⟨M', g1, hR, g2, g3, g4⟩
  obtain ⟨v, v1, v2⟩ := g1.at hc2
  obtain ⟨b, b1, b2'⟩ := BV.getBit_rep v2 hl
  rw [v1, ok_bind, b1, ok_bind]
  have hct : (⟨c, hc2⟩ : Fin m) ≠ ⟨top, ht⟩ := by simp [Fin.ext_iff]; omega
  cases b with
  | false =>
    simp only [Bool.false_eq_true, if_false, Sat_ok]
    refine ⟨M', g1, hR, g2, g3, fun i hi1 hi2 => ?_⟩
    by_cases hic : (i : ℕ) = c
    · rw [show i = ⟨c, hc2⟩ from Fin.ext hic, ← b2']; rfl
    · exact g4 i hi1 (by omega)
  | true =>
    simp only [if_true]
    obtain ⟨t, t1, t2⟩ := g1.at ht
    obtain ⟨w, w1, w2⟩ := BV.accum_rep v2 t2
    rw [t1, ok_bind, w1, ok_bind, wr_ok (by rw [g1.len]; exact hc2), ok_bind, Sat_ok]
    refine ⟨_, g1.setRow hc2 w2, ?_, g2.change (fun i hi => ?_) (fun i j hi hj => ?_), ?_, fun i hi1 hi2 => ?_⟩
    · have := hR.addRow hct 1
      rwa [one_smul] at this
    · rw [Matrix.updateRow_ne (by rintro rfl; simp at hi; omega)]
    · by_cases hic : i = ⟨c, hc2⟩
      · subst hic
        simp [g2.below _ j hi hj, g2.below ⟨top, ht⟩ j le_rfl hj]
      · rw [Matrix.updateRow_ne hic]; exact g2.below i j hi hj
    · rw [Matrix.updateRow_ne (Ne.symm hct)]; exact g3
    · by_cases hic : i = ⟨c, hc2⟩
      · subst hic
        rw [Matrix.updateRow_self, Pi.add_apply, g3, ← b2']; decide
      · rw [Matrix.updateRow_ne hic]
        exact g4 i hi1 (by have : (i : ℕ) ≠ c := fun h => hic (Fin.ext h); omega)

/-- A matrix whose last row alone is left over is in echelon form whatever that row is. -/
theorem ech_last {M : Matrix (Fin m) (Fin n) (ZMod 2)} {top left : ℕ} {p : ℕ → ℕ} (he : Ech M top left p) (ht : top + 1 = m) :
    ∃ rk p', IsEchelon M rk p' := by
  have htm : top < m := by omega
  by_cases hz : M ⟨top, htm⟩ = 0
  · refine ⟨top, fun i => ⟨p i, (he.lt i i.2).trans_le he.hleft⟩, ?_⟩
    refine { le := he.htop, mono := fun i j hij => he.mono i j hij j.2, zero := fun i hi => ?_, one := fun i => he.one _ _ i.2 rfl, left := fun i j hj => he.left0 _ _ i.2 hj }
    rw [show i = ⟨top, htm⟩ from Fin.ext (by have := i.2; simp; omega)]; exact hz
  · have hex : ∃ q, ∃ hq : q < n, M ⟨top, htm⟩ ⟨q, hq⟩ ≠ 0 := by
      by_contra hc
      push Not at hc
      exact hz (funext fun j => hc j j.2)
    classical
    obtain ⟨hq, h1⟩ := Nat.find_spec hex
    set q := Nat.find hex with hqd
    have h2 : ∀ l (hl : l < n), l < q → M ⟨top, htm⟩ ⟨l, hl⟩ = 0 := fun l hl hlq => by
      by_contra hne
      exact Nat.find_min hex hlq ⟨hl, hne⟩
    have hlq : left ≤ q := by
      by_contra hc
      exact h1 (he.below ⟨top, htm⟩ ⟨q, hq⟩ le_rfl (show q < left by omega))
    have hlt : ∀ i, i < top + 1 → Function.update p top q i < n := fun i hi => by
      by_cases hit : i = top
      · subst hit; rw [Function.update_self]; exact hq
      · rw [Function.update_of_ne hit]; exact (he.lt i (by omega)).trans_le he.hleft
    refine ⟨top + 1, fun i => ⟨Function.update p top q i, hlt i i.2⟩, ?_⟩
    refine { le := by omega, mono := fun i j hij => ?_, zero := fun i hi => by have := i.2; omega, one := fun i => ?_, left := fun i j hj => ?_ }
    · show Function.update p top q i < Function.update p top q j
      have hij : (i : ℕ) < j := hij
      have hj := j.2
      rw [Function.update_of_ne (show (i : ℕ) ≠ top by omega)]
      by_cases hjt : (j : ℕ) = top
      · rw [hjt, Function.update_self]; exact (he.lt i (by omega)).trans_le hlq
      · rw [Function.update_of_ne hjt]; exact he.mono i j hij (by omega)
    · by_cases hit : (i : ℕ) = top
      · have e1 : (⟨i, i.2.trans_le (by omega)⟩ : Fin m) = ⟨top, htm⟩ := Fin.ext hit
        rw [e1]
        have e2 : (⟨Function.update p top q i, hlt i i.2⟩ : Fin n) = ⟨q, hq⟩ := Fin.ext (by simp [hit])
        rw [e2]
        exact zmod2_ne_zero.mp h1
      · refine he.one _ _ (by have := i.2; simp; omega) ?_
        simp [Function.update_of_ne hit]
    · have hj : (j : ℕ) < Function.update p top q i := hj
      by_cases hit : (i : ℕ) = top
      · have e1 : (⟨i, i.2.trans_le (by omega)⟩ : Fin m) = ⟨top, htm⟩ := Fin.ext hit
        rw [hit, Function.update_self] at hj
        rw [e1]
        exact h2 j j.2 hj
      · rw [Function.update_of_ne hit] at hj
        exact he.left0 _ _ (by have := i.2; simp; omega) hj

theorem rrLoop_rep {M0 : Matrix (Fin m) (Fin n) (ZMod 2)} :
    ∀ k (A : BM) (M : Matrix (Fin m) (Fin n) (ZMod 2)) top left p, Rep A M → RowEq M0 M 1 → Ech M top left p → n ≤ k + left →
      ∃ B, rrLoop k A top left = ok B ∧ ∃ M', Rep B M' ∧ RowEq M0 M' 1 ∧ ∃ rk p', IsEchelon M' rk p'
  | 0, A, M, top, left, p, hA, hR, he, hk => by
    unfold rrLoop
    rw [hA.nr, hA.nc, if_neg (by omega)]
    exact ⟨A, rfl, M, hA, hR, _, _, he.final (by omega)⟩
  | k + 1, A, M, top, left, p, hA, hR, he, hk => by
    unfold rrLoop
    rw [hA.nr, hA.nc]
    by_cases hc : top < m ∧ left < n
    · rw [if_pos hc]
      obtain ⟨ht, hl⟩ := hc
      by_cases hlast : top < m - 1
      · rw [if_pos hlast]
        obtain ⟨r, r1, r2⟩ := findPivot_rep hA hl (m - top) top (by omega)
        rw [r1, ok_bind]
        cases r with
        | none => exact rrLoop_rep k A M top (left + 1) p hA hR (he.skip hl r2) (by omega)
        | some q =>
          obtain ⟨h1, h2, h3⟩ := r2
          obtain ⟨B, b1, M1, g1, g2, g3, g4⟩ := pivotSwap_rep hA hR he ht h2 h1 hl h3
          dsimp only
          rw [b1, ok_bind]
          unfold clearIf
          obtain ⟨v, v1, v2⟩ := g1.at ht
          obtain ⟨b, c1, c2⟩ := BV.getBit_rep v2 hl
          rw [v1, ok_bind, c1, ok_bind]
          have hb : b = true := by rw [← c2] at g4; exact b2_ne_zero.mp g4
          subst hb
          simp only [if_true]
          obtain ⟨C, k1, M2, k2, k3, k4⟩ := clearBelow_rep g1 g2 g3 ht hl c2.symm
          rw [k1, ok_bind]
          exact rrLoop_rep k C M2 (top + 1) (left + 1) _ k2 k3 k4 (by omega)
      · rw [if_neg hlast]
        unfold clearIf
        obtain ⟨v, v1, v2⟩ := hA.at ht
        obtain ⟨b, c1, c2⟩ := BV.getBit_rep v2 hl
        rw [v1, ok_bind, c1, ok_bind]
        cases b with
        | true =>
          simp only [if_true]
          obtain ⟨C, k1, M2, k2, k3, k4⟩ := clearBelow_rep hA hR he ht hl c2.symm
          rw [k1, ok_bind]
          exact rrLoop_rep k C M2 (top + 1) (left + 1) _ k2 k3 k4 (by omega)
        | false =>
          simp only [Bool.false_eq_true, if_false, ok_bind]
          have : rrLoop k A (top + 1) (left + 1) = ok A := by
            cases k with
            | zero => unfold rrLoop; rw [hA.nr, if_neg (by omega)]
            | succ k => unfold rrLoop; rw [hA.nr, if_neg (by omega)]
          rw [this]
          exact ⟨A, rfl, M, hA, hR, ech_last he (by omega)⟩
    · rw [if_neg hc]
      exact ⟨A, rfl, M, hA, hR, _, _, he.final hc⟩

theorem rrs_rep {A : BM} {M : Matrix (Fin m) (Fin n) (ZMod 2)} (hA : Rep A M) :
    ∃ r, row_reduce_below_with_scalar A = ok r ∧ r.2 = true ∧ ∃ M', Rep r.1 M' ∧ RowEq M M' 1 ∧ ∃ rk p, IsEchelon M' rk p := by
  unfold row_reduce_below_with_scalar
  rw [hA.nc]
  obtain ⟨B, h1, h2⟩ := rrLoop_rep n A M 0 0 id hA (RowEq.refl M) (Ech.init M id) (by omega)
  rw [h1]
  exact ⟨_, rfl, rfl, h2⟩

theorem rr_rep {A : BM} {M : Matrix (Fin m) (Fin n) (ZMod 2)} (hA : Rep A M) :
    ∃ r, row_reduce_below A = ok r ∧ ∃ M', Rep r M' ∧ RowEq M M' 1 ∧ ∃ rk p, IsEchelon M' rk p := by
  unfold row_reduce_below
  obtain ⟨r, h1, _, h2⟩ := rrs_rep hA
  rw [h1]
  exact ⟨_, rfl, h2⟩

theorem detLoop_rep {A : BM} {M : Matrix (Fin n) (Fin n) (ZMod 2)} (hA : Rep A M) : ∀ k i, k + i = n →
    ∃ b, detLoop A k i = ok b ∧ (b = true ↔ ∀ a : Fin n, i ≤ (a : ℕ) → M a a = 1)
  | 0, i, h => ⟨true, rfl, by simp only [true_iff]; intro a ha; have := a.2; omega⟩
  | k + 1, i, h => by
    unfold detLoop
    have hi : i < n := by omega
    obtain ⟨z, z1, z2⟩ := get_rep hA hi hi
    rw [z1, ok_bind]
    cases z with
    | false =>
      refine ⟨false, rfl, ?_⟩
      simp only [Bool.false_eq_true, false_iff]
      intro hh
      have := hh ⟨i, hi⟩ le_rfl
      rw [← z2] at this; simp at this
    | true =>
      obtain ⟨b, b1, b2⟩ := detLoop_rep hA k (i + 1) (by omega)
      refine ⟨b, b1, b2.trans ⟨fun hh a ha => ?_, fun hh a ha => hh a (by omega)⟩⟩
      by_cases hai : (a : ℕ) = i
      · rw [show a = ⟨i, hi⟩ from Fin.ext hai]; exact z2.symm
      · exact hh a (by omega)

theorem det_rep {A : BM} {M : Matrix (Fin n) (Fin n) (ZMod 2)} (hA : Rep A M) : ∃ b, det A = ok b ∧ b2 b = M.det := by
  unfold det is_square
  rw [hA.nr, hA.nc]
  simp only [beq_self_eq_true, Bool.not_true, Bool.false_eq_true, if_false]
  obtain ⟨C, c1, c2⟩ := copy_rep hA
  rw [c1, ok_bind]
  obtain ⟨r, r1, _, M', r2, r3, rk, p, r4⟩ := rrs_rep c2
  rw [r1, ok_bind]
  obtain ⟨b, b1, b2'⟩ := detLoop_rep r2 n 0 rfl
  refine ⟨b, b1, ?_⟩
  obtain ⟨P, hP, hM⟩ := r3
  have hd : M'.det = M.det := by
    rw [hM, Matrix.det_mul]; rw [one_mul] at hP; rw [hP, one_mul]
  rw [← hd, r4.det_eq]
  cases b with
  | true =>
    simp only [true_iff] at b2'
    rw [Finset.prod_eq_one fun i _ => b2' i (by omega)]; rfl
  | false =>
    simp only [Bool.false_eq_true, false_iff] at b2'
    push Not at b2'
    obtain ⟨a, _, ha⟩ := b2'
    rw [Finset.prod_eq_zero (Finset.mem_univ a) (by rcases zmod2_cases (M' a a) with h | h; exact h; exact absurd h ha)]; rfl

theorem rankLoop_rep {A : BM} {M : Matrix (Fin m) (Fin n) (ZMod 2)} (hA : Rep A M) {rk : ℕ} {p : Fin rk → Fin n} (he : IsEchelon M rk p) :
    ∀ k i, k + i = m → i ≤ rk → rankLoop A k i i = ok rk
  | 0, i, h, hi => by unfold rankLoop; have := he.le; congr 1; omega
  | k + 1, i, h, hi => by
    unfold rankLoop
    have him : i < m := by omega
    obtain ⟨v, v1, v2⟩ := hA.at him
    obtain ⟨z, z1, z2⟩ := BV.is_zero_rep v2
    rw [v1, ok_bind, z1, ok_bind]
    rw [he.row_eq_zero] at z2
    cases z with
    | true =>
      have := z2.mp rfl
      simp only [if_true]; congr 1; simp at this; omega
    | false =>
      simp only [Bool.false_eq_true, false_iff, not_le] at z2
      simp only [Bool.false_eq_true, if_false]
      exact rankLoop_rep hA he k (i + 1) (by omega) (by simpa using z2)

theorem rank_rr_rep {A : BM} {M : Matrix (Fin m) (Fin n) (ZMod 2)} (hA : Rep A M) {rk : ℕ} {p : Fin rk → Fin n} (he : IsEchelon M rk p) :
    get_rank_rr A = ok rk := by
  unfold get_rank_rr
  rw [hA.nr]
  exact rankLoop_rep hA he m 0 rfl (Nat.zero_le _)

theorem rank_rep {A : BM} {M : Matrix (Fin m) (Fin n) (ZMod 2)} (hA : Rep A M) : get_rank A = ok M.rank := by
  unfold get_rank
  obtain ⟨C, c1, c2⟩ := copy_rep hA
  rw [c1, ok_bind]
  obtain ⟨r, r1, M', r2, r3, rk, p, r4⟩ := rr_rep c2
  rw [r1, ok_bind, rank_rr_rep r2 r4, ← r4.rank_eq, RowEquiv.rank r3.unit]

/-! ### reduced row echelon form -/

theorem clearRow_rep {rk : ℕ} {p : Fin rk → Fin n} {row : ℕ} (hrow : row < m) {M0 : Matrix (Fin m) (Fin n) (ZMod 2)} :
    ∀ k (A : BM) (row2 : ℕ) (M : Matrix (Fin m) (Fin n) (ZMod 2)), k + row2 = m → row < row2 → Rep A M → IsEchelon M rk p → RowEquiv M0 M →
      (∀ q : Fin rk, row < (q : ℕ) → (q : ℕ) < row2 → M ⟨row, hrow⟩ (p q) = 0) →
      ∃ r, clearRow row k A row2 = ok r ∧ ∃ M' : Matrix (Fin m) (Fin n) (ZMod 2), Rep r M' ∧ IsEchelon M' rk p ∧ RowEquiv M0 M' ∧
        (∀ q : Fin rk, row < (q : ℕ) → M' ⟨row, hrow⟩ (p q) = 0) ∧ ∀ i : Fin m, (i : ℕ) ≠ row → M' i = M i
  | 0, A, row2, M, hk, hlt, hA, he, hR, hc => by
    unfold clearRow
    exact ⟨A, rfl, M, hA, he, hR, fun q hq => hc q hq (by have := q.2; have := he.le; omega), fun _ _ => rfl⟩
  | k + 1, A, row2, M, hk, hlt, hA, he, hR, hc => by
    unfold clearRow
    have h2 : row2 < m := by omega
    obtain ⟨r2, v1, v2⟩ := hA.at h2
    obtain ⟨l, l1, l2⟩ := BV.find_leader_rep v2
    rw [v1, ok_bind, l1, ok_bind]
    cases l with
    | none =>
      have hl' : rk ≤ row2 := he.row_eq_zero.mp l2
      exact ⟨A, rfl, M, hA, he, hR, fun q hq => hc q hq (by have := q.2; omega), fun _ _ => rfl⟩
    | some pos =>
      obtain ⟨hp, hone, hlz⟩ := l2
      have hne : M ⟨row2, h2⟩ ⟨pos, hp⟩ ≠ 0 := by rw [hone]; decide
      have hrk : row2 < rk := by
        by_contra hge
        exact hne (by rw [he.zero ⟨row2, h2⟩ (by simpa using hge)]; rfl)
      have hpos : (⟨pos, hp⟩ : Fin n) = p ⟨row2, hrk⟩ := he.leader hrk hne hlz
      obtain ⟨b, b1, b2'⟩ := BV.get_rep v2 hp
      obtain ⟨r, w1, w2⟩ := hA.at hrow
      obtain ⟨c, c1, c2⟩ := BV.get_rep w2 hp
      have hb : b = true := b2_eq_one.mp (b2'.trans hone)
      subst hb
      dsimp only
      rw [b1, ok_bind, w1, ok_bind, c1, ok_bind]
      cases c with
      | false =>
        simp only [Bool.not_false, if_true]
        refine clearRow_rep hrow k A (row2 + 1) M (by omega) (by omega) hA he hR fun q hq1 hq2 => ?_
        by_cases hq : (q : ℕ) = row2
        · have : q = ⟨row2, hrk⟩ := Fin.ext hq
          rw [this, ← hpos]; exact c2.symm
        · exact hc q hq1 (by omega)
      | true =>
        simp only [Bool.not_true, Bool.false_eq_true, if_false]
        obtain ⟨t, t1, t2⟩ := BV.smul_rep v2 true
        obtain ⟨r', s1, s2⟩ := BV.xorAssign_rep w2 t2
        rw [t1, ok_bind, s1, ok_bind, wr_ok (by rw [hA.len]; exact hrow), ok_bind]
        have hne2 : (⟨row, hrow⟩ : Fin m) ≠ ⟨row2, h2⟩ := by simp [Fin.ext_iff]; omega
        obtain ⟨r, g0, M', g1, g2, g3, g4, g5⟩ := clearRow_rep hrow k _ (row2 + 1) _ (by omega) (by omega) (hA.setRow hrow s2) (he.subLower hlt hrk _)
          (hR.trans (RowEquiv.addRow M hne2 _)) fun q hq1 hq2 => by
            by_cases hq : (q : ℕ) = row2
            · have : q = ⟨row2, hrk⟩ := Fin.ext hq
              rw [this, ← hpos, Matrix.updateRow_self]
              simp only [Pi.add_apply, Pi.smul_apply, b2_true, one_smul, hone, ← c2]; decide
            · have h1 := hc q hq1 (by omega)
              have h2' : M ⟨row2, h2⟩ (p q) = 0 := he.at_pivot (by simp; omega)
              simp [h1, h2']
        exact ⟨r, g0, M', g1, g2, g3, g4, fun i hi => (g5 i hi).trans (Matrix.updateRow_ne (by simpa [Fin.ext_iff] using hi))⟩

theorem ref_rep {A : BM} {M : Matrix (Fin m) (Fin n) (ZMod 2)} (hA : Rep A M) :
    ∃ r, row_echelon_form A = ok r ∧ ∃ M' : Matrix (Fin m) (Fin n) (ZMod 2), Rep r M' ∧ (∃ rk p, IsReduced M' rk p) ∧ RowEquiv M M' := by
  unfold row_echelon_form
  obtain ⟨B, b1, M1, hB, hR, rk, p, he⟩ := rr_rep hA
  rw [b1, ok_bind, hB.nr]
  apply ok_of_sat
  refine (forUp_sat (fun i A => ∃ M', Rep A M' ∧ IsEchelon M' rk p ∧ RowEquiv M M' ∧
    ∀ (l : Fin m) (q : Fin rk), (l : ℕ) < i → (l : ℕ) < q → M' l (p q) = 0) (Nat.zero_le _) ⟨M1, hB, he, hR.unit, fun _ _ h => by omega⟩ ?_).mono
    fun r ⟨M', h1, h2, h3, h4⟩ => ⟨M', h1, ⟨rk, p, h2, fun i k hik => ?_⟩, h3⟩
  · intro row A' _ hrow ⟨M', h1, h2, h3, h4⟩
    rw [h1.nr]
    obtain ⟨r, g0, M'', g1, g2, g3, g4, g5⟩ := clearRow_rep hrow (m - (row + 1)) A' (row + 1) M' (by omega) (by omega) h1 h2 h3 fun q h1 h2 => by omega
    rw [g0, Sat_ok]
    refine ⟨M'', g1, g2, g3, fun l q hl hlq => ?_⟩
    by_cases hlr : (l : ℕ) = row
    · have : l = ⟨row, hrow⟩ := Fin.ext hlr
      rw [this]; exact g4 q (by omega)
    · rw [g5 l hlr]; exact h4 l q (by omega) hlq
  · rcases Nat.lt_or_gt_of_ne hik with h | h
    · exact h4 i k i.2 h
    · exact h2.at_pivot h

/-! ### kernel -/

theorem leader_row {A : BM} {M : Matrix (Fin m) (Fin n) (ZMod 2)} (hA : Rep A M)
    {r : ℕ} {p : Fin r → Fin n} (he : IsEchelon M r p) (i : Fin r) :
    ∃ v, rd A.rows i = ok v ∧ BV.find_leader_pos v = ok (some (p i : ℕ)) := by
  obtain ⟨v, v1, v2⟩ := hA.at (i.2.trans_le he.le)
  obtain ⟨l, l1, l2⟩ := BV.find_leader_rep v2
  refine ⟨v, v1, ?_⟩
  rw [l1]
  cases l with
  | none => exact absurd l2 (he.row_ne_zero i.2)
  | some q =>
    obtain ⟨hq, h1, h2⟩ := l2
    have := he.leader (i := ⟨i, i.2.trans_le he.le⟩) i.2 (j := ⟨q, hq⟩) (by rw [h1]; decide) h2
    rw [← congrArg Fin.val this]

theorem freeFlags_rep {A : BM} {M : Matrix (Fin m) (Fin n) (ZMod 2)} (hA : Rep A M) {r : ℕ} {p : Fin r → Fin n} (he : IsEchelon M r p) :
    ∃ fl, freeFlags A n r = ok fl ∧ fl.length = n ∧ ∀ j, j < n → ∃ b, fl[j]? = some b ∧ (b = true ↔ ∀ q : Fin r, (p q : ℕ) ≠ j) := by
  unfold freeFlags
  apply ok_of_sat
  refine (forUp_sat (fun i fl => fl.length = n ∧ ∀ j, j < n → ∃ b, fl[j]? = some b ∧ (b = true ↔ ∀ q : Fin r, (q : ℕ) < i → (p q : ℕ) ≠ j)) (Nat.zero_le _)
    ⟨by simp, fun j hj => ⟨true, by simp [hj], by simp⟩⟩ ?_).mono fun fl ⟨h1, h2⟩ => ⟨h1, fun j hj => ?_⟩
  · intro i fl _ hi ⟨hl, hf⟩
    obtain ⟨v, hv, hv2⟩ := leader_row hA he ⟨i, hi⟩
    rw [hv, ok_bind, hv2, ok_bind]
    dsimp only
    rw [wr_ok (by rw [hl]; exact (p ⟨i, hi⟩).2), Sat_ok]
    refine ⟨by simpa using hl, fun j hj => ?_⟩
    by_cases hjp : (p ⟨i, hi⟩ : ℕ) = j
    · subst hjp
      exact ⟨false, List.getElem?_set_self (by omega), by simp only [Bool.false_eq_true, false_iff]; intro h; exact h ⟨i, hi⟩ (by simp) rfl⟩
    · obtain ⟨b, hb1, hb2⟩ := hf j hj
      refine ⟨b, by rw [List.getElem?_set_ne hjp]; exact hb1, hb2.trans ⟨fun h q hq => ?_, fun h q hq => h q (by omega)⟩⟩
      by_cases hqi : (q : ℕ) = i
      · have : q = ⟨i, hi⟩ := Fin.ext hqi
        rw [this]; exact hjp
      · exact h q (by omega)
  · obtain ⟨b, hb1, hb2⟩ := h2 j hj
    exact ⟨b, hb1, hb2.trans ⟨fun h q => h q q.2, fun h q _ => h q⟩⟩

theorem depLoop_rep {A : BM} {M : Matrix (Fin m) (Fin n) (ZMod 2)} (hA : Rep A M) {r : ℕ} {p : Fin r → Fin n} (he : IsEchelon M r p)
    {d i fi : ℕ} (hi : i < d) (hfi : fi < n) {s0 : BM} {S0 : Matrix (Fin d) (Fin n) (ZMod 2)} (hs0 : Rep s0 S0)
    (h0 : ∀ q : Fin r, S0 ⟨i, hi⟩ (p q) = 0) :
    ∃ t, depLoop A r fi i s0 = ok t ∧ ∃ T : Matrix (Fin d) (Fin n) (ZMod 2), Rep t T ∧
      (∀ q : Fin r, T ⟨i, hi⟩ (p q) = M ⟨q, q.2.trans_le he.le⟩ ⟨fi, hfi⟩) ∧
      ∀ i' j', (i' ≠ ⟨i, hi⟩ ∨ ∀ q, j' ≠ p q) → T i' j' = S0 i' j' := by
  unfold depLoop
  apply ok_of_sat
  refine (forUp_sat (fun l t => ∃ T : Matrix (Fin d) (Fin n) (ZMod 2), Rep t T ∧
      (∀ q : Fin r, T ⟨i, hi⟩ (p q) = if (q : ℕ) < l then M ⟨q, q.2.trans_le he.le⟩ ⟨fi, hfi⟩ else 0) ∧
      ∀ i' j', (i' ≠ ⟨i, hi⟩ ∨ ∀ q, j' ≠ p q) → T i' j' = S0 i' j') (Nat.zero_le _) ⟨S0, hs0, fun q => by simp [h0 q], fun _ _ _ => rfl⟩ ?_).mono
    fun t ⟨T, h1, h2, h3⟩ => ⟨T, h1, fun q => by simp [h2 q], h3⟩
  intro l t _ hl ⟨T, h1, h2, h3⟩
  have hlm : l < m := hl.trans_le he.le
  obtain ⟨b, b1, b2'⟩ := get_rep hA hlm hfi
  rw [b1, ok_bind]
  cases b with
  | false =>
    simp only [Bool.not_false, if_true, Sat_ok]
    refine ⟨T, h1, fun q => ?_, h3⟩
    rw [h2 q]
    by_cases hql : (q : ℕ) = l
    · rw [if_neg (by omega), if_pos (by omega)]
      rw [← b2_false, b2']; congr 1; exact Fin.ext hql.symm
    · by_cases hq2 : (q : ℕ) < l
      · rw [if_pos hq2, if_pos (by omega)]
      · rw [if_neg hq2, if_neg (by omega)]
  | true =>
    simp only [Bool.not_true, Bool.false_eq_true, if_false]
    obtain ⟨v, hv, hv2⟩ := leader_row hA he ⟨l, hl⟩
    rw [hv, ok_bind, hv2, ok_bind]
    dsimp only
    rw [ok_bind]
    obtain ⟨t', t1, t2⟩ := put_rep h1 hi (p ⟨l, hl⟩).2 true
    rw [t1, Sat_ok]
    refine ⟨_, t2, fun q => ?_, fun i' j' h => ?_⟩
    · rw [updEntry_apply]
      by_cases hql : (q : ℕ) = l
      · have : q = ⟨l, hl⟩ := Fin.ext hql
        subst this
        simp [← b2']
      · have hne : p q ≠ p ⟨l, hl⟩ := fun h => hql (congrArg Fin.val (he.mono.injective h))
        rw [if_neg (fun h => hne h.2), h2 q]
        by_cases hq2 : (q : ℕ) < l
        · rw [if_pos hq2, if_pos (by omega)]
        · rw [if_neg hq2, if_neg (by omega)]
    · rw [updEntry_apply, if_neg (fun ⟨a, b⟩ => h.elim (fun h => h a) fun h => h _ b)]
      exact h3 i' j' h

theorem freeIndices_eq (fl : List Bool) (n : ℕ) : freeIndices fl n = TMat.freeIndices fl n := rfl

theorem kernel_sat {tm : TrimMask} (H : ∀ k, (tm k).Sat U fun _ => True) {A : BM} {M : Matrix (Fin m) (Fin n) (ZMod 2)} (hn : 0 < n) (hA : Rep A M) :
    (get_kernel_basis tm A).Sat U (fun r => match r with
      | none => LinearMap.ker M.mulVecLin = ⊥
      | some B => ∃ d, d = n - M.rank ∧ 0 < d ∧ ∃ K : Matrix (Fin d) (Fin n) (ZMod 2), Rep B K ∧ LinearIndependent (ZMod 2) (fun i => K i) ∧
          Submodule.span (ZMod 2) (Set.range fun i => K i) = LinearMap.ker M.mulVecLin) := by
  unfold get_kernel_basis
  obtain ⟨C, c1, c2⟩ := copy_rep hA
  obtain ⟨B, b1, M', hB, ⟨rk, p, hred⟩, hR⟩ := ref_rep c2
  rw [c1, ok_bind, b1, ok_bind, rank_rr_rep hB hred.toIsEchelon, ok_bind]
  have hker : LinearMap.ker M'.mulVecLin = LinearMap.ker M.mulVecLin := by
    ext x; simpa using hR.ker x
  have hrank : M.rank = rk := by rw [← hR.rank, hred.toIsEchelon.rank_eq]
  obtain ⟨e, hF, hL⟩ := freeCols hred.mono.injective
  rw [hB.nc, hA.nc]
  simp only
  by_cases hd : n - rk = 0
  · rw [if_pos hd, Sat_ok]
    show LinearMap.ker M.mulVecLin = ⊥
    rw [← hker, ← KerRows.span_eq (K := Matrix.of fun (i : Fin (n - rk)) _ => (0 : ZMod 2)) hred hF
      ⟨fun i => absurd i.2 (by omega), fun i => absurd i.2 (by omega)⟩]
    rw [Submodule.span_eq_bot]
    rintro _ ⟨i, rfl⟩
    exact absurd i.2 (by omega)
  rw [if_neg hd]
  have hd0 : 0 < n - rk := by omega
  refine (fill_sat H hd0 hn).bind fun b0 hb0 => ?_
  obtain ⟨fl, f1, f2, f3⟩ := freeFlags_rep hB hred.toIsEchelon
  rw [f1, ok_bind, freeIndices_eq]
  refine (freeIndices_sat (g := fun j => ∀ q : Fin rk, (p q : ℕ) ≠ j) f3).bind fun fi hfi => ?_
  have hfe : ∀ t : Fin (n - rk), rd fi.1 t = ok (e t : ℕ) := by
    intro t
    have h1 := hL t
    rw [← hfi.1, List.getElem?_take_of_lt (by rw [freeList hred.mono.injective]; exact t.2)] at h1
    unfold rd; rw [h1]
  refine (forUp_sat (fun i b => ∃ K : Matrix (Fin (n - rk)) (Fin n) (ZMod 2), Rep b K ∧
    (∀ l : Fin (n - rk), (l : ℕ) < i → (∀ q : Fin rk, K l (p q) = M' ⟨q, q.2.trans_le hred.le⟩ (e l)) ∧
      ∀ t, K l (e t) = if l = t then 1 else 0) ∧
    ∀ (l : Fin (n - rk)) j, i ≤ (l : ℕ) → K l j = 0) (Nat.zero_le _) ⟨0, hb0, fun l h => by omega, fun _ _ _ => rfl⟩ ?_).bind fun b hh => ?_
  · intro i b _ hi ⟨K, h1, h2, h3⟩
    rw [hfe ⟨i, hi⟩]
    simp only [ok_bind]
    obtain ⟨b1, g0, g1⟩ := put_rep h1 hi (e ⟨i, hi⟩).2 true
    rw [g0, ok_bind]
    obtain ⟨t, k0, T, k1, k2, k3⟩ := depLoop_rep hB hred.toIsEchelon hi (e ⟨i, hi⟩).2 g1 fun q => by
      rw [updEntry_apply, if_neg (fun h => hF.disj q ⟨i, hi⟩ h.2)]
      exact h3 _ _ le_rfl
    rw [k0, Sat_ok]
    refine ⟨T, k1, fun l hl => ?_, fun l j hl => ?_⟩
    · by_cases hli : l = ⟨i, hi⟩
      · subst hli
        refine ⟨k2, fun t' => ?_⟩
        rw [k3 _ (e t') (Or.inr fun q h => hF.disj q t' h.symm), updEntry_apply]
        by_cases ht : (⟨i, hi⟩ : Fin (n - rk)) = t'
        · subst ht; simp
        · rw [if_neg ht, if_neg (fun h => ht (hF.inj h.2).symm)]
          exact h3 _ _ le_rfl
      · have hlt : (l : ℕ) < i := by have : (l : ℕ) ≠ i := fun h => hli (Fin.ext h); omega
        obtain ⟨q1, q2⟩ := h2 l hlt
        have hE : ∀ j, T l j = K l j := fun j => by rw [k3 l j (Or.inl hli), updEntry_apply, if_neg (fun h => hli h.1)]
        exact ⟨fun q => (hE _).trans (q1 q), fun t => (hE _).trans (q2 t)⟩
    · have hli : l ≠ ⟨i, hi⟩ := by rintro rfl; simp at hl
      rw [k3 l j (Or.inl hli), updEntry_apply, if_neg (fun h => hli h.1)]
      exact h3 l j (by omega)
  · obtain ⟨K, h1, h2, _⟩ := hh
    obtain ⟨R, r1, r2⟩ := assign_rep (B := empty) h1 hn (fun h => by simp [empty] at h; omega)
    rw [r1, ok_bind, Sat_ok]
    have hK : KerRows M' hred.le p e K := by
      constructor
      · intro i t; exact (h2 i i.2).2 t
      · intro i q; rw [zmod2_neg]; exact (h2 i i.2).1 q
    exact ⟨n - rk, by rw [hrank], hd0, K, r2, KerRows.indep hK.free, by rw [hK.span_eq hred hF, hker]⟩

/-! ### positive powers -/

theorem posexp_sat {tm : TrimMask} (H : ∀ k, (tm k).Sat U fun _ => True) {A I : BM} {M : Matrix (Fin n) (Fin n) (ZMod 2)} (hn : 0 < n)
    (hA : Rep A M) (hI : Rep I (1 : Matrix (Fin n) (Fin n) (ZMod 2))) {e : ℕ} (he : e < 2 ^ 32) :
    (posexp tm A e I).Sat U (fun r => Rep r (M ^ e)) := by
  unfold posexp
  exact (sqMulLoop_pow (g := M) (rp := fun A M => Rep A M) (fun ha hb => mul_sat H hn hn hn ha hb) 32 I A 0 1 e he (by simpa using hI) (by simpa using hA)).mono
    fun r hr => by simpa using hr

theorem exp_pos_sat {tm : TrimMask} (H : ∀ k, (tm k).Sat U fun _ => True) {A : BM} {M : Matrix (Fin n) (Fin n) (ZMod 2)} (hn : 0 < n)
    (hA : Rep A M) {e : Int} (he : InInt e) (he1 : 1 ≤ e) :
    (exp tm A e).Sat U (fun r => ∃ B, r = some B ∧ Rep B (M ^ e.toNat)) := by
  unfold exp is_square
  rw [hA.nr, hA.nc]
  simp only [beq_self_eq_true, Bool.not_true, Bool.false_eq_true, if_false]
  obtain ⟨I, i1, i2⟩ := make_I_rep hA
  rw [i1, ok_bind, if_pos he1]
  refine (posexp_sat H hn hA i2 (e := e.toNat) (by have := he.2; omega)).bind fun r hr => ?_
  exact ⟨r, rfl, hr⟩

/-! ### paste writes past the end of the rows -/

theorem paste_throw {A B : BM} {M : Matrix (Fin n) (Fin n) (ZMod 2)} {N : Matrix (Fin n) (Fin n) (ZMod 2)} (hn : 0 < n)
    (hA : Rep A M) (hB : Rep B N) : paste A B = throw := by
  unfold paste
  rw [hA.nr, hA.nc, hB.nr, hB.nc, if_neg (by simp)]
  obtain ⟨Z, z1, z2⟩ := alloc_rep (m := n) (n := n + n) hn (by omega)
  rw [z1, ok_bind]
  have hs : Slots Z.rows n n := ⟨z2.len, fun i hi => (z2.row ⟨i, hi⟩).mono fun v hv => Or.inr (le_trans (by unfold BV.nwords; omega) hv.len)⟩
  obtain ⟨rs, h1, h2, h3⟩ := ok_of_sat (assignRows_sat (f := fun i => rd A.rows i) (M := M) hs fun i hi => sat_of_ok (hA.at hi))
  rw [h1, ok_bind]
  have hrep : ∀ s : BM, s.rows = rs → s.num_rows = n → Rep { s with num_cols := n } M := fun s e1 e2 => ⟨e2, rfl, by rw [← e1] at h2; exact h2, by rw [← e1] at h3; exact h3⟩
  obtain ⟨n, rfl⟩ : ∃ k, n = k + 1 := ⟨n - 1, by omega⟩
  obtain ⟨b, b1, _⟩ := get_rep hB (i := 0) (j := 0) (by omega) (by omega)
  have hp : put { Z with rows := rs } 0 (n + 1 + 0) b = throw := by
    have := put_throw (hrep { Z with rows := rs } rfl z2.nr) (i := 0) (j := n + 1 + 0) (by omega) (by omega) b
    unfold put at this ⊢
    revert this
    dsimp only
    cases rd rs 0 with
    | ok r =>
      simp only [ok_bind]
      cases BV.set r (n + 1 + 0) b with
      | ok r' =>
        simp only [ok_bind]
        cases wr rs 0 r' <;> simp
      | _ => simp
    | _ => simp
  have : ∀ (body : ℕ → BM → Res BM) (k : ℕ) (s : BM), body 0 s = throw → forUp 0 (k + 1) s body = throw := by
    intro body k s h
    unfold forUp
    show loopUp body (k + 1) 0 s = throw
    unfold loopUp
    rw [h]; rfl
  refine this _ _ _ (this _ _ _ ?_)
  rw [b1, ok_bind]
  exact hp

theorem inverse_throw {A : BM} {M : Matrix (Fin n) (Fin n) (ZMod 2)} (hn : 0 < n) (hA : Rep A M) : inverse A = throw := by
  unfold inverse is_square
  rw [hA.nr, hA.nc]
  simp only [beq_self_eq_true, Bool.not_true, Bool.false_eq_true, if_false]
  obtain ⟨I, i1, i2⟩ := make_I_rep hA
  rw [i1, ok_bind, paste_throw hn hA i2]; rfl

theorem exp_nonpos_throw {tm : TrimMask} {A : BM} {M : Matrix (Fin n) (Fin n) (ZMod 2)} (hn : 0 < n) (hA : Rep A M) {e : Int} (he : e ≤ 0) :
    exp tm A e = throw := by
  unfold exp is_square
  rw [hA.nr, hA.nc]
  simp only [beq_self_eq_true, Bool.not_true, Bool.false_eq_true, if_false]
  obtain ⟨I, i1, i2⟩ := make_I_rep hA
  rw [i1, ok_bind, if_neg (by omega), inverse_throw hn hA]; rfl

end BM
end Spffl
