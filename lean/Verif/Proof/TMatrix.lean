/-
Vectors and matrices: the container operations refine `Matrix` over any commutative ring refined by the
element type.
-/
import Verif.Model.TMatrix
import Verif.Proof.CPoly
import Mathlib.LinearAlgebra.Matrix.NonsingularInverse
import Mathlib.Data.Matrix.Mul

namespace Spffl
open Res

/-- The element operations used by the containers refine the commutative ring `R`.  (Negation is listed
separately where it is used.) -/
structure EltRef (U : Prop) {α R : Type} [CommRing R] (O : TOps α) (rep : α → R → Prop) : Prop where
  add : ∀ {a b x y}, rep a x → rep b y → (O.add a b).Sat U (fun r => rep r (x + y))
  sub : ∀ {a b x y}, rep a x → rep b y → (O.sub a b).Sat U (fun r => rep r (x - y))
  mul : ∀ {a b x y}, rep a x → rep b y → (O.mul a b).Sat U (fun r => rep r (x * y))
  div : ∀ {a b x y z}, rep a x → rep b y → y * z = 1 → (O.div a b).Sat U (fun r => rep r (x * z))
  eq : ∀ {a b x y}, rep a x → rep b y → (O.eq a b).Sat U (fun r => r = true ↔ x = y)

structure NegRef (U : Prop) {α R : Type} [CommRing R] (O : TOps α) (rep : α → R → Prop) : Prop where
  neg : ∀ {a x}, rep a x → (O.neg a).Sat U (fun r => rep r (-x))

theorem CoefRef.elt {U : Prop} {α R : Type} [CommRing R] {O : CoefOps α} {rep : α → R → Prop} {ord : R → R → Prop}
    (H : CoefRef U O rep ord) : EltRef U O.tops rep :=
  ⟨H.add, H.sub, H.mul, H.div, H.eq⟩

theorem CoefRef.negRef {U : Prop} {α R : Type} [CommRing R] {O : CoefOps α} {rep : α → R → Prop} {ord : R → R → Prop}
    (H : CoefRef U O rep ord) : NegRef U O.tops rep := ⟨H.neg⟩

/-- the vector `v` denotes `x` -/
def VRep {α R : Type} (rep : α → R → Prop) {n : ℕ} (v : TVec α) (x : Fin n → R) : Prop :=
  v.length = n ∧ ∀ j : Fin n, At v j (fun e => rep e (x j))

/-- `m` by `n`, every row allocated to length `n` -/
structure Shape {α : Type} (A : TMat α) (m n : ℕ) : Prop where
  nr : A.num_rows = m
  nc : A.num_cols = n
  row : ∀ i, i < m → ∃ r, A.rows[i]? = some r ∧ r.length = n

/-- entry `(i, j)`, if there is one -/
def ent {α : Type} (A : TMat α) (i j : ℕ) : Option α := A.rows[i]?.bind (·[j]?)

def At2 {α : Type} (A : TMat α) (i j : ℕ) (P : α → Prop) : Prop := ∃ e, ent A i j = some e ∧ P e

/-- the matrix object `A` denotes the matrix `M` -/
structure MRep {α R : Type} (rep : α → R → Prop) {m n : ℕ} (A : TMat α) (M : Matrix (Fin m) (Fin n) R) : Prop where
  shape : Shape A m n
  ent : ∀ i j, At2 A (i : Fin m) (j : Fin n) (fun e => rep e (M i j))

section infra
variable {U : Prop} {α : Type}

theorem At2.mono {A : TMat α} {i j : ℕ} {P Q : α → Prop} (h : At2 A i j P) (hpq : ∀ a, P a → Q a) : At2 A i j Q := by
  obtain ⟨e, he, hp⟩ := h; exact ⟨e, he, hpq e hp⟩

theorem At2.congr {A B : TMat α} {i j : ℕ} {P : α → Prop} (h : At2 A i j P) (he : ent B i j = ent A i j) : At2 B i j P := by
  obtain ⟨e, h1, hp⟩ := h; exact ⟨e, by rw [he, h1], hp⟩

theorem vget_sat {v : TVec α} {i : ℕ} {P : α → Prop} (h : At v i P) : (TVec.get v i).Sat U P := by
  unfold TVec.get; rw [if_pos h.lt]; exact rd_sat h

theorem vput_sat {v : TVec α} {i : ℕ} {r : Res α} {P : α → Prop} (hi : i < v.length) (h : r.Sat U P) :
    (TVec.put v i r).Sat U (fun w => ∃ x, P x ∧ w = v.set i x) := by
  unfold TVec.put
  refine h.bind fun x hx => ?_
  rw [if_pos hi, wr_ok hi, Sat_ok]
  exact ⟨x, hx, rfl⟩

theorem get_sat {A : TMat α} {i j : ℕ} {P : α → Prop} (h : At2 A i j P) : (A.get i j).Sat U P := by
  obtain ⟨e, he, hp⟩ := h
  unfold ent at he
  cases hr : A.rows[i]? with
  | none => rw [hr] at he; simp at he
  | some r =>
    rw [hr] at he
    unfold TMat.get
    unfold rd; rw [hr]
    exact vget_sat ⟨e, he, hp⟩

theorem raw_sat {A : TMat α} {i j : ℕ} {P : α → Prop} (h : At2 A i j P) : (A.raw i j).Sat U P := by
  obtain ⟨e, he, hp⟩ := h
  unfold ent at he
  cases hr : A.rows[i]? with
  | none => rw [hr] at he; simp at he
  | some r =>
    rw [hr] at he
    unfold TMat.raw
    unfold rd; rw [hr]
    exact rd_sat ⟨e, he, hp⟩

theorem Shape.len {A : TMat α} {m n : ℕ} (h : Shape A m n) {i : ℕ} (hi : i < m) : i < A.rows.length := by
  obtain ⟨r, hr, _⟩ := h.row i hi
  exact (List.getElem?_eq_some_iff.mp hr).1

/-- replacing row `i` -/
theorem shape_setRow {A : TMat α} {m n i : ℕ} {r : TVec α} (h : Shape A m n) (hr : r.length = n) :
    Shape { A with rows := A.rows.set i r } m n := by
  refine ⟨h.nr, h.nc, fun k hk => ?_⟩
  by_cases hki : i = k
  · subst hki
    exact ⟨r, by simpa using List.getElem?_set_self (h.len hk), hr⟩
  · obtain ⟨s, hs, hl⟩ := h.row k hk
    exact ⟨s, by simpa using (List.getElem?_set_ne hki).trans hs, hl⟩

theorem ent_setRow_self {A : TMat α} {m n i : ℕ} {r : TVec α} (h : Shape A m n) (hi : i < m) (j : ℕ) :
    ent { A with rows := A.rows.set i r } i j = r[j]? := by
  simp [ent, List.getElem?_set_self (h.len hi)]

theorem ent_setRow_ne {A : TMat α} {i k : ℕ} {r : TVec α} (hik : k ≠ i) (j : ℕ) :
    ent { A with rows := A.rows.set i r } k j = ent A k j := by
  simp [ent, List.getElem?_set_ne (Ne.symm hik)]

theorem put_sat {A : TMat α} {m n i j : ℕ} {r : Res α} {P : α → Prop} (h : Shape A m n) (hi : i < m) (hj : j < n)
    (hr : r.Sat U P) :
    (A.put i j r).Sat U (fun B => Shape B m n ∧ At2 B i j P ∧ ∀ i' j', (i' ≠ i ∨ j' ≠ j) → ent B i' j' = ent A i' j') := by
  unfold TMat.put
  refine hr.bind fun x hx => ?_
  obtain ⟨row, hrow, hl⟩ := h.row i hi
  unfold rd; rw [hrow]; simp only [ok_bind]
  unfold TVec.put
  simp only [ok_bind]
  rw [if_pos (by omega), wr_ok (by omega)]
  simp only [ok_bind, Sat_ok]
  refine ⟨shape_setRow h (by simpa using hl), ⟨x, ?_, hx⟩, fun i' j' hne => ?_⟩
  · rw [ent_setRow_self h hi]; exact List.getElem?_set_self (by omega)
  · by_cases h1 : i' = i
    · subst h1
      rw [ent_setRow_self h hi, List.getElem?_set_ne (by omega)]
      simp [ent, hrow]
    · exact ent_setRow_ne h1 _

theorem cput_sat {A : TMat α} {m n i j : ℕ} {r : Res α} {P : α → Prop} (h : Shape A m n) (hi : i < m) (hj : j < n)
    (hr : r.Sat U P) :
    (A.cput i j r).Sat U (fun B => Shape B m n ∧ At2 B i j P ∧ ∀ i' j', (i' ≠ i ∨ j' ≠ j) → ent B i' j' = ent A i' j') := by
  unfold TMat.cput
  refine hr.bind fun x hx => ?_
  rw [if_pos (by rw [h.nr]; exact hi)]
  exact put_sat h hi hj (r := ok x) hx

/-- A double loop over a rectangle in which step `(i, j)` changes only entry `(i, j)`. -/
theorem fill2_sat {m n a b c d : ℕ} {body : ℕ → ℕ → TMat α → Res (TMat α)} {s0 : TMat α} {P0 P : ℕ → ℕ → α → Prop}
    (hab : a ≤ b) (hcd : c ≤ d) (h0 : Shape s0 m n)
    (hp0 : ∀ i j, a ≤ i → i < b → c ≤ j → j < d → At2 s0 i j (P0 i j))
    (hb : ∀ i j s, a ≤ i → i < b → c ≤ j → j < d → Shape s m n → At2 s i j (P0 i j) →
      (body i j s).Sat U (fun t => Shape t m n ∧ At2 t i j (P i j) ∧
        ∀ i' j', (i' ≠ i ∨ j' ≠ j) → ent t i' j' = ent s i' j')) :
    (forUp a b s0 fun i s => forUp c d s fun j s => body i j s).Sat U (fun t => Shape t m n ∧
      (∀ i j, a ≤ i → i < b → c ≤ j → j < d → At2 t i j (P i j)) ∧
      ∀ i j, ¬ (a ≤ i ∧ i < b ∧ c ≤ j ∧ j < d) → ent t i j = ent s0 i j) := by
  refine (forUp_sat (fun k s => Shape s m n ∧ (∀ i j, a ≤ i → i < k → c ≤ j → j < d → At2 s i j (P i j)) ∧
    ∀ i j, ¬ (a ≤ i ∧ i < k ∧ c ≤ j ∧ j < d) → ent s i j = ent s0 i j) hab
    ⟨h0, fun i j h1 h2 => by omega, fun _ _ _ => rfl⟩ ?_)
  intro i s hi1 hi2 ⟨hs, hP, hE⟩
  refine (forUp_sat (fun k s => Shape s m n ∧
    (∀ i' j, a ≤ i' → (i' < i ∨ i' = i ∧ j < k) → c ≤ j → j < d → At2 s i' j (P i' j)) ∧
    ∀ i' j, ¬ (a ≤ i' ∧ (i' < i ∨ i' = i ∧ j < k) ∧ c ≤ j ∧ j < d) → ent s i' j = ent s0 i' j) hcd
    ⟨hs, fun i' j h1 h2 h3 h4 => hP i' j h1 (by omega) h3 h4, fun i' j h => hE i' j (by omega)⟩ ?_).mono ?_
  · intro j s hj1 hj2 ⟨hs, hP, hE⟩
    refine (hb i j s hi1 hi2 hj1 hj2 hs ((hp0 i j hi1 hi2 hj1 hj2).congr (hE i j (by omega)))).mono
      fun t ⟨h1, h2, h3⟩ => ⟨h1, fun i' j' q1 q2 q3 q4 => ?_, fun i' j' h => ?_⟩
    · by_cases he : i' = i ∧ j' = j
      · obtain ⟨rfl, rfl⟩ := he; exact h2
      · exact (hP i' j' q1 (by omega) q3 q4).congr (h3 i' j' (by omega))
    · rw [h3 i' j' (by omega)]; exact hE i' j' (by omega)
  · intro t ⟨h1, h2, h3⟩
    exact ⟨h1, fun i' j q1 q2 q3 q4 => h2 i' j q1 (by omega) q3 q4, fun i' j h => h3 i' j (by omega)⟩

theorem alloc_sat {O : TOps α} {m n : ℕ} (hm : 0 < m) (hn : 0 < n) :
    (TMat.alloc O m n).Sat U (fun A => Shape A m n ∧ ∀ i j, i < m → j < n → At2 A i j fun _ => True) := by
  unfold TMat.alloc
  rw [if_neg (by omega), Sat_ok]
  refine ⟨⟨by simp, by simp, fun i hi => ⟨List.replicate n O.dflt, by simp [hi], by simp⟩⟩, fun i j hi hj => ?_⟩
  exact ⟨O.dflt, by simp [ent, hi, hj], trivial⟩

theorem tabulate_sat {O : TOps α} {m n : ℕ} (hm : 0 < m) (hn : 0 < n) {f : ℕ → ℕ → Res α} {P : ℕ → ℕ → α → Prop}
    (hf : ∀ i j, i < m → j < n → (f i j).Sat U (P i j)) :
    (TMat.tabulate O m n f).Sat U (fun A => Shape A m n ∧ ∀ i j, i < m → j < n → At2 A i j (P i j)) := by
  unfold TMat.tabulate
  refine (alloc_sat hm hn).bind fun s hh => ?_
  obtain ⟨hs, h1⟩ := hh
  refine (fill2_sat (body := fun i j s => TMat.put s i j (f i j)) (P0 := fun _ _ _ => True) (P := P) (Nat.zero_le _)
    (Nat.zero_le _) hs (fun i j _ hi _ hj => h1 i j hi hj) fun i j s _ hi _ hj hs _ => put_sat hs hi hj (hf i j hi hj)).mono
    fun t ⟨h1, h2, _⟩ => ⟨h1, fun i j hi hj => h2 i j (by omega) hi (by omega) hj⟩

theorem valloc_sat {O : TOps α} {n : ℕ} (hn : 0 < n) :
    (TVec.alloc O n).Sat U (fun v => v.length = n) := by
  unfold TVec.alloc
  rw [if_neg (by omega), Sat_ok]; simp

theorem vtab_sat {O : TOps α} {n : ℕ} (hn : 0 < n) {f : ℕ → Res α} {P : ℕ → α → Prop}
    (hf : ∀ i, i < n → (f i).Sat U (P i)) :
    (TVec.tabulate O n f).Sat U (fun v => v.length = n ∧ ∀ i, i < n → At v i (P i)) := by
  unfold TVec.tabulate
  refine (valloc_sat hn).bind fun v hv => ?_
  exact (fillUp_sat (f := fun i _ => f i) (P := P) (Nat.zero_le _) (by omega) fun i _ _ hi _ _ _ => hf i hi).mono
    fun w ⟨h1, h2, _⟩ => ⟨by omega, fun i hi => h2 i (by omega) hi⟩

end infra

variable {U : Prop} {α R : Type} [CommRing R] {O : TOps α} {rep : α → R → Prop} {m n k : ℕ}

theorem VRep.at {v : TVec α} {x : Fin n → R} (h : VRep rep v x) {j : ℕ} (hj : j < n) :
    At v j (fun e => rep e (x ⟨j, hj⟩)) := h.2 ⟨j, hj⟩

theorem VRep.of {v : TVec α} {x : Fin n → R} (hl : v.length = n)
    (h : ∀ j (hj : j < n), At v j (fun e => rep e (x ⟨j, hj⟩))) : VRep rep v x := ⟨hl, fun j => h j j.2⟩

theorem MRep.at {A : TMat α} {M : Matrix (Fin m) (Fin n) R} (h : MRep rep A M) {i j : ℕ} (hi : i < m) (hj : j < n) :
    At2 A i j (fun e => rep e (M ⟨i, hi⟩ ⟨j, hj⟩)) := h.ent ⟨i, hi⟩ ⟨j, hj⟩

theorem MRep.of {A : TMat α} {M : Matrix (Fin m) (Fin n) R} (hs : Shape A m n)
    (h : ∀ i j (hi : i < m) (hj : j < n), At2 A i j (fun e => rep e (M ⟨i, hi⟩ ⟨j, hj⟩))) : MRep rep A M :=
  ⟨hs, fun i j => h i j i.2 j.2⟩

/-- row `i` as a vector -/
theorem MRep.rowRep {A : TMat α} {M : Matrix (Fin m) (Fin n) R} (h : MRep rep A M) {i : ℕ} (hi : i < m) :
    At A.rows i (fun r => VRep rep r (M ⟨i, hi⟩)) := by
  obtain ⟨r, hr, hl⟩ := h.shape.row i hi
  refine ⟨r, hr, hl, fun j => ?_⟩
  obtain ⟨e, he, hp⟩ := h.at hi j.2
  exact ⟨e, by simpa [Spffl.ent, hr] using he, hp⟩

/-- replace row `i` -/
theorem MRep.setRow {A : TMat α} {M : Matrix (Fin m) (Fin n) R} (h : MRep rep A M) {i : ℕ} (hi : i < m) {r : TVec α}
    {x : Fin n → R} (hr : VRep rep r x) :
    MRep rep { A with rows := A.rows.set i r } (M.updateRow ⟨i, hi⟩ x) := by
  refine MRep.of (shape_setRow h.shape hr.1) fun k j hk hj => ?_
  by_cases hki : k = i
  · subst hki
    obtain ⟨e, he, hp⟩ := hr.at hj
    refine ⟨e, by rw [ent_setRow_self h.shape hi]; exact he, by simpa using hp⟩
  · rw [Matrix.updateRow_ne (by simpa [Fin.ext_iff] using hki)]
    exact (h.at hk hj).congr (ent_setRow_ne hki j)

theorem setRow_sat {A : TMat α} {M : Matrix (Fin m) (Fin n) R} (h : MRep rep A M) {i : ℕ} (hi : i < m)
    {r : Res (TVec α)} {x : Fin n → R} (hr : r.Sat U (fun v => VRep rep v x)) :
    (A.setRow i r).Sat U (fun B => MRep rep B (M.updateRow ⟨i, hi⟩ x)) := by
  unfold TMat.setRow
  refine hr.bind fun v hv => ?_
  rw [wr_ok (h.shape.len hi)]
  exact h.setRow hi hv

/-! ### vectors -/

theorem vcomp_sat {op : α → α → Res α} {g : R → R → R} (hop : ∀ {a b x y}, rep a x → rep b y → (op a b).Sat U (fun r => rep r (g x y)))
    {a b : TVec α} {x y : Fin n → R} (hn : 0 < n) (ha : VRep rep a x) (hb : VRep rep b y) :
    (TVec.comp O op a b).Sat U (fun r => VRep rep r (fun i => g (x i) (y i))) := by
  unfold TVec.comp TVec.check_equal_lengths
  rw [if_pos (by rw [ha.1, hb.1])]
  simp only [ok_bind]
  rw [ha.1]
  refine (vtab_sat (P := fun i e => ∀ hi : i < n, rep e (g (x ⟨i, hi⟩) (y ⟨i, hi⟩))) hn fun i hi => ?_).mono
    fun r ⟨h1, h2⟩ => VRep.of h1 fun j hj => (h2 j hj).mono fun e he => he hj
  refine (rd_sat (ha.at hi)).bind fun p hp => ?_
  refine (rd_sat (hb.at hi)).bind fun q hq => ?_
  exact (hop hp hq).mono fun r hr _ => hr

theorem vcomp_throw {op : α → α → Res α} {a b : TVec α} (h : a.length ≠ b.length) : TVec.comp O op a b = throw := by
  unfold TVec.comp TVec.check_equal_lengths; rw [if_neg h]; rfl

theorem vunary_sat {op : α → Res α} {g : R → R} (hop : ∀ {a x}, rep a x → (op a).Sat U (fun r => rep r (g x)))
    {a : TVec α} {x : Fin n → R} (hn : 0 < n) (ha : VRep rep a x) :
    (TVec.tabulate O a.length fun i => do let x ← rd a i; op x).Sat U (fun r => VRep rep r (fun i => g (x i))) := by
  rw [ha.1]
  refine (vtab_sat (P := fun i e => ∀ hi : i < n, rep e (g (x ⟨i, hi⟩))) hn fun i hi => ?_).mono
    fun r ⟨h1, h2⟩ => VRep.of h1 fun j hj => (h2 j hj).mono fun e he => he hj
  refine (rd_sat (ha.at hi)).bind fun p hp => ?_
  exact (hop hp).mono fun r hr _ => hr

theorem vsmul_sat (H : EltRef U O rep) {a : TVec α} {x : Fin n → R} (hn : 0 < n) (ha : VRep rep a x) {s : α} {c : R}
    (hs : rep s c) : (TVec.smul O a s).Sat U (fun r => VRep rep r (c • x)) :=
  (vunary_sat (O := O) (op := fun x => O.mul x s) (fun h => H.mul h hs) hn ha).mono fun r hr => by
    convert hr using 1; ext i; simp [mul_comm]

theorem sum_range_step {f : Fin n → R} {i : ℕ} (hi : i < n) :
    (∑ j : Fin n, if (j : ℕ) < i + 1 then f j else 0) = (∑ j : Fin n, if (j : ℕ) < i then f j else 0) + f ⟨i, hi⟩ := by
  have : ∀ j : Fin n, (if (j : ℕ) < i + 1 then f j else 0) = (if (j : ℕ) < i then f j else 0) + if j = ⟨i, hi⟩ then f j else 0 := by
    intro j
    by_cases h1 : (j : ℕ) < i
    · rw [if_pos (by omega), if_pos h1, if_neg (by rintro rfl; simp at h1), add_zero]
    · by_cases h2 : j = ⟨i, hi⟩
      · subst h2; simp
      · rw [if_neg, if_neg h1, if_neg h2, add_zero]
        intro h; exact h2 (Fin.ext (by simp; omega))
  rw [Finset.sum_congr rfl fun j _ => this j, Finset.sum_add_distrib]; simp

theorem sum_range_zero {f : Fin n → R} : (∑ j : Fin n, if (j : ℕ) < 0 then f j else 0) = 0 := by simp

theorem sum_range_all {f : Fin n → R} : (∑ j : Fin n, if (j : ℕ) < n then f j else 0) = ∑ j, f j :=
  Finset.sum_congr rfl fun j _ => by simp

theorem vdot_sat (H : EltRef U O rep) {a b : TVec α} {x y : Fin n → R} (hn : 0 < n) (ha : VRep rep a x) (hb : VRep rep b y) :
    (TVec.dot O a b).Sat U (fun r => rep r (x ⬝ᵥ y)) := by
  unfold TVec.dot TVec.check_equal_lengths
  rw [if_pos (by rw [ha.1, hb.1])]
  simp only [ok_bind]
  refine (rd_sat (ha.at hn)).bind fun x0 hx0 => ?_
  refine (H.sub hx0 hx0).bind fun z hz => ?_
  rw [sub_self] at hz
  rw [ha.1]
  refine (forUp_sat (fun i rv => rep rv (∑ j : Fin n, if (j : ℕ) < i then x j * y j else 0)) (Nat.zero_le _)
    (by simpa using hz) ?_).mono fun r hr => by simpa [sum_range_all, dotProduct] using hr
  intro i rv _ hi hrv
  refine (rd_sat (ha.at hi)).bind fun p hp => ?_
  refine (rd_sat (hb.at hi)).bind fun q hq => ?_
  refine (H.mul hp hq).bind fun w hw => ?_
  refine (H.add hrv hw).mono fun r hr => ?_
  rw [sum_range_step hi]; exact hr

theorem mult_by_sat (H : EltRef U O rep) {a : TVec α} {x : Fin n → R} (ha : VRep rep a x) {s : α} {c : R}
    (hs : rep s c) : (TVec.mult_by O a s).Sat U (fun r => VRep rep r (c • x)) := by
  unfold TVec.mult_by
  rw [ha.1]
  refine (fillUp_sat (f := fun i s' => (do let x ← rd s' i; O.mul x s)) (P := fun i e => ∀ hi : i < n, rep e (c * x ⟨i, hi⟩))
    (Nat.zero_le _) (by rw [ha.1]) fun i s' _ hi hl he _ => ?_).mono fun r ⟨h1, h2, _⟩ => VRep.of (by rw [h1, ha.1]) fun j hj =>
      (h2 j (by omega) hj).mono fun e he => he hj
  refine (rd_sat ((ha.at hi).congr (he i (Or.inr le_rfl)))).bind fun p hp => ?_
  exact (H.mul hp hs).mono fun r hr _ => by rwa [mul_comm]

theorem accum_sat (H : EltRef U O rep) {v t : TVec α} {x y : Fin n → R} (hv : VRep rep v x) (ht : VRep rep t y) {a b : α} {c d : R}
    (ha : rep a c) (hb : rep b d) : (TVec.accum_row_mul O v a b t).Sat U (fun r => VRep rep r (c • x - d • y)) := by
  unfold TVec.accum_row_mul
  rw [if_neg (by rw [hv.1, ht.1]; simp)]
  simp only [pure_eq, ok_bind]
  rw [hv.1]
  refine (fillUp_sat (f := fun i s' => (do
      let x ← rd s' i
      let p ← O.mul x a
      let y ← rd t i
      let q ← O.mul y b
      O.sub p q)) (P := fun i e => ∀ hi : i < n, rep e (c * x ⟨i, hi⟩ - d * y ⟨i, hi⟩))
    (Nat.zero_le _) (by rw [hv.1]) fun i s' _ hi hl he _ => ?_).mono fun r ⟨h1, h2, _⟩ => VRep.of (by rw [h1, hv.1]) fun j hj =>
      (h2 j (by omega) hj).mono fun e he => he hj
  refine (rd_sat ((hv.at hi).congr (he i (Or.inr le_rfl)))).bind fun p hp => ?_
  refine (H.mul hp ha).bind fun p' hp' => ?_
  refine (rd_sat (ht.at hi)).bind fun q hq => ?_
  refine (H.mul hq hb).bind fun q' hq' => ?_
  exact (H.sub hp' hq').mono fun r hr _ => by rwa [mul_comm c, mul_comm d]

theorem ne_sat (H : EltRef U O rep) {a b : α} {x y : R} (ha : rep a x) (hb : rep b y) :
    (TVec.ne O a b).Sat U (fun r => r = true ↔ x ≠ y) := by
  unfold TVec.ne
  refine (H.eq ha hb).bind fun e he => ?_
  rw [Sat_ok]
  cases e <;> simp_all

/-- what the searches for non-zero entries need -/
def EqRef (U : Prop) {α R : Type} (O : TOps α) (rep : α → R → Prop) : Prop :=
  ∀ {a b x y}, rep a x → rep b y → (O.eq a b).Sat U (fun r => r = true ↔ x = y)

theorem EltRef.eqRef (H : EltRef U O rep) : EqRef U O rep := H.eq

omit [CommRing R] in
theorem neq_sat (H : EqRef U O rep) {a b : α} {x y : R} (ha : rep a x) (hb : rep b y) :
    (TVec.ne O a b).Sat U (fun r => r = true ↔ x ≠ y) := by
  unfold TVec.ne
  refine (H ha hb).bind fun e he => ?_
  rw [Sat_ok]
  cases e <;> simp_all

theorem leaderLoop_sat (H : EqRef U O rep) {v : TVec α} {x : Fin n → R} (hv : VRep rep v x) {zero : α} (hz : rep zero 0) :
    ∀ k j, k + j = n → (TVec.leaderLoop O zero v k j).Sat U (fun r => match r with
      | none => ∀ i : Fin n, j ≤ i → x i = 0
      | some p => j ≤ p ∧ ∃ hp : p < n, x ⟨p, hp⟩ ≠ 0 ∧ ∀ i : Fin n, j ≤ i → (i : ℕ) < p → x i = 0)
  | 0, j, h => by unfold TVec.leaderLoop; simp only [Sat_ok]; intro i hi; have := i.2; omega
  | k + 1, j, h => by
    unfold TVec.leaderLoop
    have hj : j < n := by omega
    refine (rd_sat (hv.at hj)).bind fun e he => ?_
    refine (neq_sat H he hz).bind fun d hd => ?_
    cases d with
    | true =>
      simp only [if_true, Sat_ok]
      exact ⟨le_rfl, hj, hd.mp rfl, fun i h1 h2 => by omega⟩
    | false =>
      have hx : x ⟨j, hj⟩ = 0 := by
        by_contra hne; simpa using hd.mpr hne
      simp only [Bool.false_eq_true, if_false]
      have key : ∀ i : Fin n, j ≤ i → ¬ (j + 1 ≤ (i : ℕ)) → x i = 0 := fun i h1 h2 => by
        have : i = ⟨j, hj⟩ := Fin.ext (by simp; omega)
        rw [this]; exact hx
      refine (leaderLoop_sat H hv hz k (j + 1) (by omega)).mono fun r hr => ?_
      cases r with
      | none =>
        intro i hi
        by_cases h' : j + 1 ≤ (i : ℕ)
        · exact hr i h'
        · exact key i hi h'
      | some p =>
        obtain ⟨g1, g2, g3, g4⟩ := hr
        refine ⟨by omega, g2, g3, fun i h1 h2 => ?_⟩
        by_cases h' : j + 1 ≤ (i : ℕ)
        · exact g4 i h' h2
        · exact key i h1 h'

theorem find_leader_sat (H : EqRef U O rep) {v : TVec α} {x : Fin n → R} (hv : VRep rep v x) {zero : α} (hz : rep zero 0) :
    (TVec.find_leader_pos O zero v).Sat U (fun r => match r with
      | none => x = 0
      | some p => ∃ hp : p < n, x ⟨p, hp⟩ ≠ 0 ∧ ∀ i : Fin n, (i : ℕ) < p → x i = 0) := by
  unfold TVec.find_leader_pos
  rw [hv.1]
  refine (leaderLoop_sat H hv hz n 0 rfl).mono fun r hr => ?_
  cases r with
  | none => exact funext fun i => hr i (Nat.zero_le _)
  | some p => exact ⟨hr.2.choose, hr.2.choose_spec.1, fun i h => hr.2.choose_spec.2 i (Nat.zero_le _) h⟩

theorem veqLoop_sat (H : EltRef U O rep) {a b : TVec α} {x y : Fin n → R} (ha : VRep rep a x) (hb : VRep rep b y) :
    ∀ k i, k + i = n → (TVec.eqLoop O a b k i).Sat U (fun r => r = true ↔ ∀ j : Fin n, i ≤ j → x j = y j)
  | 0, i, h => by unfold TVec.eqLoop; simp only [Sat_ok, true_iff]; intro j hj; have := j.2; omega
  | k + 1, i, h => by
    unfold TVec.eqLoop
    have hi : i < n := by omega
    refine (rd_sat (ha.at hi)).bind fun p hp => ?_
    refine (rd_sat (hb.at hi)).bind fun q hq => ?_
    refine (ne_sat H hp hq).bind fun d hd => ?_
    cases d with
    | true =>
      simp only [if_true, Sat_ok, Bool.false_eq_true, false_iff]
      exact fun hh => hd.mp rfl (hh ⟨i, hi⟩ le_rfl)
    | false =>
      have hx : x ⟨i, hi⟩ = y ⟨i, hi⟩ := by
        by_contra hne; simpa using hd.mpr hne
      simp only [Bool.false_eq_true, if_false]
      refine (veqLoop_sat H ha hb k (i + 1) (by omega)).mono fun r hr => hr.trans ⟨fun hh j hj => ?_, fun hh j hj => hh j (by omega)⟩
      by_cases h' : i + 1 ≤ (j : ℕ)
      · exact hh j h'
      · have : j = ⟨i, hi⟩ := Fin.ext (by simp; omega)
        rw [this]; exact hx

theorem veq_sat (H : EltRef U O rep) {a b : TVec α} {x y : Fin n → R} (ha : VRep rep a x) (hb : VRep rep b y) :
    (TVec.eq O a b).Sat U (fun r => r = true ↔ x = y) := by
  unfold TVec.eq
  rw [if_neg (by rw [ha.1, hb.1]; simp), ha.1]
  refine (veqLoop_sat H ha hb n 0 rfl).mono fun r hr => hr.trans ⟨fun h => funext fun j => h j (Nat.zero_le _), fun h j _ => by rw [h]⟩

theorem veq_len {a b : TVec α} (h : a.length ≠ b.length) : TVec.eq O a b = ok false := by
  unfold TVec.eq; rw [if_pos h]

/-! ### matrix ring operations -/

theorem check_dims_sat {A B : TMat α} (ha : Shape A m n) (hb : Shape B m n) : TMat.check_dims A B = ok () := by
  unfold TMat.check_dims; rw [if_neg]; rw [ha.nr, hb.nr, ha.nc, hb.nc]; simp

theorem mcomp_sat {op : α → α → Res α} {g : R → R → R} (hop : ∀ {a b x y}, rep a x → rep b y → (op a b).Sat U (fun r => rep r (g x y)))
    {A B : TMat α} {M N : Matrix (Fin m) (Fin n) R} (hm : 0 < m) (hn : 0 < n) (hA : MRep rep A M) (hB : MRep rep B N) :
    (TMat.comp O op A B).Sat U (fun r => MRep rep r (Matrix.of fun i j => g (M i j) (N i j))) := by
  unfold TMat.comp
  rw [check_dims_sat hA.shape hB.shape]
  simp only [ok_bind]
  rw [hA.shape.nr, hA.shape.nc]
  refine (tabulate_sat (P := fun i j e => ∀ (hi : i < m) (hj : j < n), rep e (g (M ⟨i, hi⟩ ⟨j, hj⟩) (N ⟨i, hi⟩ ⟨j, hj⟩))) hm hn fun i j hi hj => ?_).mono
    fun r ⟨h1, h2⟩ => MRep.of h1 fun i j hi hj => (h2 i j hi hj).mono fun e he => he hi hj
  refine (get_sat (hA.at hi hj)).bind fun p hp => ?_
  refine (get_sat (hB.at hi hj)).bind fun q hq => ?_
  exact (hop hp hq).mono fun r hr _ _ => hr

theorem mcomp_throw {op : α → α → Res α} {A B : TMat α} (h : A.num_rows ≠ B.num_rows ∨ A.num_cols ≠ B.num_cols) :
    TMat.comp O op A B = throw := by
  unfold TMat.comp TMat.check_dims; rw [if_pos h]; rfl

theorem add_sat' (H : EltRef U O rep) {A B : TMat α} {M N : Matrix (Fin m) (Fin n) R} (hm : 0 < m) (hn : 0 < n)
    (hA : MRep rep A M) (hB : MRep rep B N) : (TMat.add O A B).Sat U (fun r => MRep rep r (M + N)) :=
  mcomp_sat H.add hm hn hA hB

theorem sub_sat' (H : EltRef U O rep) {A B : TMat α} {M N : Matrix (Fin m) (Fin n) R} (hm : 0 < m) (hn : 0 < n)
    (hA : MRep rep A M) (hB : MRep rep B N) : (TMat.sub O A B).Sat U (fun r => MRep rep r (M - N)) :=
  mcomp_sat H.sub hm hn hA hB

theorem munary_sat {op : α → Res α} {g : R → R} (hop : ∀ {a x}, rep a x → (op a).Sat U (fun r => rep r (g x)))
    {A : TMat α} {M : Matrix (Fin m) (Fin n) R} (hm : 0 < m) (hn : 0 < n) (hA : MRep rep A M) :
    (TMat.tabulate O A.num_rows A.num_cols fun i j => do let x ← A.get i j; op x).Sat U
      (fun r => MRep rep r (Matrix.of fun i j => g (M i j))) := by
  rw [hA.shape.nr, hA.shape.nc]
  refine (tabulate_sat (P := fun i j e => ∀ (hi : i < m) (hj : j < n), rep e (g (M ⟨i, hi⟩ ⟨j, hj⟩))) hm hn fun i j hi hj => ?_).mono
    fun r ⟨h1, h2⟩ => MRep.of h1 fun i j hi hj => (h2 i j hi hj).mono fun e he => he hi hj
  refine (get_sat (hA.at hi hj)).bind fun p hp => ?_
  exact (hop hp).mono fun r hr _ _ => hr

theorem neg_sat' (N : NegRef U O rep) {A : TMat α} {M : Matrix (Fin m) (Fin n) R} (hm : 0 < m) (hn : 0 < n)
    (hA : MRep rep A M) : (TMat.neg O A).Sat U (fun r => MRep rep r (-M)) :=
  munary_sat N.neg hm hn hA

theorem smul_sat' (H : EltRef U O rep) {A : TMat α} {M : Matrix (Fin m) (Fin n) R} (hm : 0 < m) (hn : 0 < n)
    (hA : MRep rep A M) {s : α} {c : R} (hs : rep s c) : (TMat.smul O A s).Sat U (fun r => MRep rep r (c • M)) :=
  (munary_sat (op := fun x => O.mul x s) (fun h => H.mul h hs) hm hn hA).mono fun r hr => by
    convert hr using 1; ext i j; simp [mul_comm]

theorem index_sat {A : TMat α} {M : Matrix (Fin m) (Fin n) R} {m' n' : ℕ} (hm : 0 < m') (hn : 0 < n') (hA : MRep rep A M)
    {e : ℕ → ℕ} {e' : ℕ → ℕ} (he : ∀ i, i < m' → e i < m) (he' : ∀ j, j < n' → e' j < n) :
    (TMat.tabulate O m' n' fun i j => A.get (e i) (e' j)).Sat U
      (fun r => MRep rep r (Matrix.of fun (i : Fin m') (j : Fin n') => M ⟨e i, he i i.2⟩ ⟨e' j, he' j j.2⟩)) := by
  refine (tabulate_sat (P := fun i j x => ∀ (hi : i < m') (hj : j < n'), rep x (M ⟨e i, he i hi⟩ ⟨e' j, he' j hj⟩)) hm hn fun i j hi hj => ?_).mono
    fun r ⟨h1, h2⟩ => MRep.of h1 fun i j hi hj => (h2 i j hi hj).mono fun e he => he hi hj
  exact (get_sat (hA.at (he i hi) (he' j hj))).mono fun x hx _ _ => hx

theorem transpose_sat {A : TMat α} {M : Matrix (Fin m) (Fin n) R} (hm : 0 < m) (hn : 0 < n)
    (hA : MRep rep A M) : (TMat.transpose O A).Sat U (fun r => MRep rep r M.transpose) := by
  unfold TMat.transpose
  rw [hA.shape.nr, hA.shape.nc]
  refine (alloc_sat hn hm).bind fun s hh => ?_
  obtain ⟨hs, _⟩ := hh
  refine (forUp_sat (fun k s => Shape s n m ∧ ∀ i j (hi : i < m) (hj : j < n), i < k → At2 s j i (fun e => rep e (M ⟨i, hi⟩ ⟨j, hj⟩)))
    (Nat.zero_le _) ⟨hs, fun i j _ _ h => by omega⟩ ?_).mono fun r ⟨h1, h2⟩ => MRep.of h1 fun i j hi hj => h2 j i hj hi hj
  intro i s _ hi ⟨hs, hP⟩
  refine (forUp_sat (fun k s => Shape s n m ∧ ∀ i' j (hi' : i' < m) (hj : j < n), (i' < i ∨ i' = i ∧ j < k) →
    At2 s j i' (fun e => rep e (M ⟨i', hi'⟩ ⟨j, hj⟩))) (Nat.zero_le _) ⟨hs, fun i' j hi' hj h => hP i' j hi' hj (by omega)⟩ ?_).mono
    fun r ⟨h1, h2⟩ => ⟨h1, fun i' j hi' hj h => h2 i' j hi' hj (by omega)⟩
  intro j s _ hj ⟨hs, hP⟩
  refine (put_sat hs hj hi (get_sat (hA.at hi hj))).mono fun t ⟨h1, h2, h3⟩ => ⟨h1, fun i' j' hi' hj' h => ?_⟩
  by_cases he : i' = i ∧ j' = j
  · obtain ⟨rfl, rfl⟩ := he; exact h2
  · exact (hP i' j' hi' hj' (by omega)).congr (h3 j' i' (by omega))

theorem mul_sat' (H : EltRef U O rep) {A B : TMat α} {M : Matrix (Fin m) (Fin k) R} {N : Matrix (Fin k) (Fin n) R}
    (hm : 0 < m) (hn : 0 < n) (hk : 0 < k) (hA : MRep rep A M) (hB : MRep rep B N) :
    (TMat.mul O A B).Sat U (fun r => MRep rep r (M * N)) := by
  unfold TMat.mul
  rw [if_neg (by rw [hA.shape.nc, hB.shape.nr]; simp), hA.shape.nr, hA.shape.nc, hB.shape.nc]
  refine (alloc_sat hm hn).bind fun s hh => ?_
  obtain ⟨hs, h0⟩ := hh
  refine (get_sat (hA.at hm hk)).bind fun x hx => ?_
  refine (H.sub hx hx).bind fun z hz => ?_
  rw [sub_self] at hz
  refine (fill2_sat (body := fun i j s => TMat.put s i j (ok z)) (P0 := fun _ _ _ => True) (P := fun _ _ e => rep e 0) (Nat.zero_le _)
    (Nat.zero_le _) hs (fun i j _ hi _ hj => h0 i j hi hj) fun i j s _ hi _ hj hs _ => put_sat hs hi hj (r := ok z) hz).bind fun t hh => ?_
  obtain ⟨ht, h1, _⟩ := hh
  refine (fill2_sat (body := fun i j s => forUp 0 k s fun k s => TMat.put s i j (do
        let x ← s.get i j
        let a ← A.get i k
        let b ← B.get k j
        let p ← O.mul a b
        O.add x p)) (P0 := fun _ _ e => rep e 0) (P := fun i j e => ∀ (hi : i < m) (hj : j < n), rep e ((M * N) ⟨i, hi⟩ ⟨j, hj⟩)) (Nat.zero_le _)
    (Nat.zero_le _) ht (fun i j _ hi _ hj => h1 i j (by omega) hi (by omega) hj) fun i j s _ hi _ hj hs hP => ?_).mono
    fun t ⟨h1, h2, _⟩ => MRep.of h1 fun i j hi hj => (h2 i j (by omega) hi (by omega) hj).mono fun e he => he hi hj
  refine (forUp_sat (fun q t => Shape t m n ∧ At2 t i j (fun e => rep e (∑ l : Fin k, if (l : ℕ) < q then M ⟨i, hi⟩ l * N l ⟨j, hj⟩ else 0)) ∧
        ∀ i' j', (i' ≠ i ∨ j' ≠ j) → ent t i' j' = ent s i' j') (Nat.zero_le _) ⟨hs, hP.mono fun e he => by simpa using he, fun _ _ _ => rfl⟩ ?_).mono
    fun t ⟨h1, h2, h3⟩ => ⟨h1, h2.mono fun e he _ _ => by simpa [sum_range_all, Matrix.mul_apply] using he, h3⟩
  intro l t _ hl ⟨ht, hP, hE⟩
  refine (put_sat (P := fun e => rep e ((∑ l' : Fin k, if (l' : ℕ) < l then M ⟨i, hi⟩ l' * N l' ⟨j, hj⟩ else 0) + M ⟨i, hi⟩ ⟨l, hl⟩ * N ⟨l, hl⟩ ⟨j, hj⟩))
    ht hi hj ?_).mono fun t' ⟨h1, h2, h3⟩ => ⟨h1, h2.mono fun e he => by rwa [sum_range_step (f := fun l' => M ⟨i, hi⟩ l' * N l' ⟨j, hj⟩) hl],
      fun i' j' h => (h3 i' j' h).trans (hE i' j' h)⟩
  refine (get_sat hP).bind fun x hx => ?_
  refine (get_sat (hA.at hi hl)).bind fun a ha => ?_
  refine (get_sat (hB.at hl hj)).bind fun b hb => ?_
  refine (H.mul ha hb).bind fun p hp => ?_
  exact H.add hx hp

theorem mul_throw {A B : TMat α} (h : A.num_cols ≠ B.num_rows) : TMat.mul O A B = throw := by
  unfold TMat.mul; rw [if_pos h]

theorem outer_sat (H : EltRef U O rep) {a b : TVec α} {x : Fin m → R} {y : Fin n → R} (hm : 0 < m) (hn : 0 < n)
    (ha : VRep rep a x) (hb : VRep rep b y) : (TMat.outer O a b).Sat U (fun r => MRep rep r (Matrix.vecMulVec x y)) := by
  unfold TMat.outer
  rw [ha.1, hb.1]
  refine (tabulate_sat (P := fun i j e => ∀ (hi : i < m) (hj : j < n), rep e (x ⟨i, hi⟩ * y ⟨j, hj⟩)) hm hn fun i j hi hj => ?_).mono
    fun r ⟨h1, h2⟩ => MRep.of h1 fun i j hi hj => (h2 i j hi hj).mono fun e he => he hi hj
  refine (vget_sat (ha.at hi)).bind fun p hp => ?_
  refine (vget_sat (hb.at hj)).bind fun q hq => ?_
  exact (H.mul hp hq).mono fun r hr _ _ => hr

/-- an accumulation loop over one vector slot, nested in a loop over the slots -/
theorem accum2_sat {N K : ℕ} {body : ℕ → ℕ → TVec α → Res (TVec α)} {f : Fin N → Fin K → R} {v : TVec α} (hv : VRep rep v (0 : Fin N → R))
    (hb : ∀ i j (hi : i < N) (hj : j < K) (w : TVec α) (y : R), w.length = N → At w i (fun e => rep e y) →
      (body i j w).Sat U (fun w' => ∃ e, rep e (y + f ⟨i, hi⟩ ⟨j, hj⟩) ∧ w' = w.set i e)) :
    (forUp 0 N v fun i s => forUp 0 K s fun j s => body i j s).Sat U (fun r => VRep rep r (fun i => ∑ j, f i j)) := by
  refine (forUp_sat (fun q s => s.length = N ∧ ∀ l (hl : l < N), At s l (fun e => rep e (if l < q then ∑ j, f ⟨l, hl⟩ j else 0))) (Nat.zero_le _)
    ⟨hv.1, fun l hl => (hv.at hl).mono fun e he => by simpa using he⟩ ?_).mono fun r ⟨h1, h2⟩ => VRep.of h1 fun j hj => (h2 j hj).mono fun e he => by
      rwa [if_pos hj] at he
  intro i s _ hi ⟨hl, hP⟩
  refine (forUp_sat (fun q s => s.length = N ∧ At s i (fun e => rep e (∑ j : Fin K, if (j : ℕ) < q then f ⟨i, hi⟩ j else 0)) ∧
    ∀ l (hl : l < N), l ≠ i → At s l (fun e => rep e (if l < i then ∑ j, f ⟨l, hl⟩ j else 0))) (Nat.zero_le _)
    ⟨hl, (hP i hi).mono fun e he => by simpa using he, fun l hl _ => hP l hl⟩ ?_).mono fun r ⟨h1, h2, h3⟩ => ⟨h1, fun l hl => ?_⟩
  · intro j s _ hj ⟨hl, hA, hP⟩
    refine (hb i j hi hj s _ hl hA).mono fun w ⟨e, he, hw⟩ => ?_
    subst hw
    refine ⟨by simpa using hl, at_set_self (by omega) (by rwa [sum_range_step (f := f ⟨i, hi⟩) hj]), fun l hl' hne => ?_⟩
    exact (hP l hl' hne).congr (List.getElem?_set_ne (Ne.symm hne))
  · by_cases hli : l = i
    · subst hli
      exact h2.mono fun e he => by rw [if_pos (by omega)]; simpa [sum_range_all] using he
    · refine (h3 l hl hli).mono fun e he => ?_
      by_cases h4 : l < i
      · rw [if_pos h4] at he; rwa [if_pos (by omega)]
      · rw [if_neg h4] at he; rwa [if_neg (by omega)]

theorem mulVec_sat (H : EltRef U O rep) {A : TMat α} {M : Matrix (Fin m) (Fin n) R} {v : TVec α} {x : Fin n → R} (hm : 0 < m) (hn : 0 < n)
    (hA : MRep rep A M) (hv : VRep rep v x) : (TMat.mulVec O A v).Sat U (fun r => VRep rep r (M.mulVec x)) := by
  unfold TMat.mulVec
  rw [if_neg (by rw [hA.shape.nc, hv.1]; simp), hA.shape.nr, hA.shape.nc]
  refine (valloc_sat hm).bind fun s hs => ?_
  refine (get_sat (hA.at hm hn)).bind fun t ht => ?_
  refine (H.sub ht ht).bind fun z hz => ?_
  rw [sub_self] at hz
  refine (forUp_sat (fun q s => s.length = m ∧ ∀ l, l < q → At s l (fun e => rep e 0)) (Nat.zero_le _) ⟨hs, fun l h => by omega⟩ ?_).bind fun w hh => ?_
  · intro i s _ hi ⟨hl, hP⟩
    refine (vput_sat (by omega) (r := ok z) (P := fun e => rep e 0) hz).mono fun w ⟨e, he, hw⟩ => ?_
    subst hw
    refine ⟨by simpa using hl, fun l hl' => ?_⟩
    by_cases hli : l = i
    · subst hli; exact at_set_self (by omega) he
    · exact (hP l (by omega)).congr (List.getElem?_set_ne (Ne.symm hli))
  obtain ⟨hl, hP⟩ := hh
  refine (accum2_sat (f := fun i j => M i j * x j) (VRep.of hl fun j hj => hP j hj) fun i j hi hj w y hl hAt => ?_).mono fun r hr => hr
  refine (vput_sat (P := fun e => rep e (y + M ⟨i, hi⟩ ⟨j, hj⟩ * x ⟨j, hj⟩)) (by omega) ?_).mono fun w ⟨e, he, hw⟩ => ⟨e, he, hw⟩
  refine (vget_sat hAt).bind fun x hx => ?_
  refine (get_sat (hA.at hi hj)).bind fun a ha => ?_
  refine (vget_sat (hv.at hj)).bind fun b hb => ?_
  refine (H.mul ha hb).bind fun p hp => ?_
  exact H.add hx hp

theorem mulVec_throw {A : TMat α} {v : TVec α} (h : A.num_cols ≠ v.length) : TMat.mulVec O A v = throw := by
  unfold TMat.mulVec; rw [if_pos h]

theorem vecMul_sat (H : EltRef U O rep) {A : TMat α} {M : Matrix (Fin m) (Fin n) R} {v : TVec α} {x : Fin m → R} (hm : 0 < m) (hn : 0 < n)
    (hA : MRep rep A M) (hv : VRep rep v x) : (TMat.vecMul O v A).Sat U (fun r => VRep rep r (Matrix.vecMul x M)) := by
  unfold TMat.vecMul
  rw [if_neg (by rw [hA.shape.nr, hv.1]; simp), hA.shape.nr, hA.shape.nc]
  refine (valloc_sat hn).bind fun s hs => ?_
  refine (rd_sat (hv.at hm)).bind fun t ht => ?_
  refine (H.sub ht ht).bind fun z hz => ?_
  rw [sub_self] at hz
  refine (fillUp_sat (f := fun _ _ => ok z) (P := fun _ e => rep e 0) (Nat.zero_le _) (by omega) fun i _ _ _ _ _ _ => hz).bind fun w hh => ?_
  obtain ⟨hl, hP, _⟩ := hh
  refine (accum2_sat (f := fun j i => x i * M i j) (VRep.of (by omega) fun j hj => hP j (by omega) hj) fun j i hj hi w y hl hAt => ?_).mono fun r hr => hr
  unfold store
  refine Sat.bind (P := fun e => rep e (y + x ⟨i, hi⟩ * M ⟨i, hi⟩ ⟨j, hj⟩)) ?_ fun e he => (wr_sat (by omega)).mono fun w hw => ⟨e, he, hw⟩
  refine (rd_sat hAt).bind fun x hx => ?_
  refine (rd_sat (hv.at hi)).bind fun a ha => ?_
  unfold TMat.row
  rw [if_pos (by rw [hA.shape.nr]; exact hi)]
  refine (rd_sat (hA.rowRep hi)).bind fun r hr => ?_
  refine (vget_sat (hr.at hj)).bind fun b hb => ?_
  refine (H.mul ha hb).bind fun p hp => ?_
  exact H.add hx hp

theorem vecMul_throw {A : TMat α} {v : TVec α} (h : v.length ≠ A.num_rows) : TMat.vecMul O v A = throw := by
  unfold TMat.vecMul; rw [if_pos h]

theorem addDiag_sat {op : α → α → Res α} {g : R → R → R} (hop : ∀ {a b x y}, rep a x → rep b y → (op a b).Sat U (fun r => rep r (g x y)))
    {A : TMat α} {M : Matrix (Fin n) (Fin n) R} (hA : MRep rep A M) {s : α} {c : R} (hs : rep s c) :
    (TMat.addDiag op A s).Sat U (fun r => MRep rep r (Matrix.of fun i j => if i = j then g (M i j) c else M i j)) := by
  unfold TMat.addDiag TMat.is_square
  rw [hA.shape.nr, hA.shape.nc]
  simp only [beq_self_eq_true, Bool.not_true, Bool.false_eq_true, if_false]
  refine (forUp_sat (fun q t => Shape t n n ∧ ∀ i j (hi : i < n) (hj : j < n), At2 t i j (fun e => rep e
      (if i = j ∧ i < q then g (M ⟨i, hi⟩ ⟨j, hj⟩) c else M ⟨i, hi⟩ ⟨j, hj⟩))) (Nat.zero_le _) ⟨hA.shape, fun i j hi hj => by simpa using hA.at hi hj⟩ ?_).mono
    fun r ⟨h1, h2⟩ => MRep.of h1 fun i j hi hj => (h2 i j hi hj).mono fun e he => by simpa [hi] using he
  intro i t _ hi ⟨ht, hP⟩
  refine (cput_sat (P := fun e => rep e (g (M ⟨i, hi⟩ ⟨i, hi⟩) c)) ht hi hi ?_).mono fun t' ⟨h1, h2, h3⟩ => ⟨h1, fun i' j' hi' hj' => ?_⟩
  · refine (get_sat (hP i i hi hi)).bind fun x hx => ?_
    rw [if_neg (by omega)] at hx
    exact hop hx hs
  · by_cases he : i' = i ∧ j' = i
    · obtain ⟨rfl, rfl⟩ := he; exact h2.mono fun e he => by simpa using he
    · refine ((hP i' j' hi' hj').congr (h3 i' j' (by omega))).mono fun e hh => ?_
      by_cases hq : i' = j' ∧ i' < i
      · rw [if_pos hq] at hh; rwa [if_pos (by omega)]
      · rw [if_neg hq] at hh; rwa [if_neg (by omega)]

theorem meqLoop_sat (H : EltRef U O rep) {A B : TMat α} {M N : Matrix (Fin m) (Fin n) R} (hA : MRep rep A M) (hB : MRep rep B N) :
    ∀ k i, k + i = m → (TMat.eqLoop O A B k i).Sat U (fun r => r = true ↔ ∀ j : Fin m, i ≤ j → M j = N j)
  | 0, i, h => by unfold TMat.eqLoop; simp only [Sat_ok, true_iff]; intro j hj; have := j.2; omega
  | k + 1, i, h => by
    unfold TMat.eqLoop
    have hi : i < m := by omega
    refine (rd_sat (hA.rowRep hi)).bind fun p hp => ?_
    refine (rd_sat (hB.rowRep hi)).bind fun q hq => ?_
    refine (veq_sat H hp hq).bind fun d hd => ?_
    cases d with
    | false =>
      simp only [Bool.not_false, if_true, Sat_ok, Bool.false_eq_true, false_iff]
      exact fun hh => by simpa using hd.mpr (hh ⟨i, hi⟩ le_rfl)
    | true =>
      have hx := hd.mp rfl
      simp only [Bool.not_true, Bool.false_eq_true, if_false]
      refine (meqLoop_sat H hA hB k (i + 1) (by omega)).mono fun r hr => hr.trans ⟨fun hh j hj => ?_, fun hh j hj => hh j (by omega)⟩
      by_cases h' : i + 1 ≤ (j : ℕ)
      · exact hh j h'
      · have : j = ⟨i, hi⟩ := Fin.ext (by simp; omega)
        rw [this]; exact hx

theorem meq_sat (H : EltRef U O rep) {A B : TMat α} {M N : Matrix (Fin m) (Fin n) R} (hA : MRep rep A M) (hB : MRep rep B N) :
    (TMat.eq O A B).Sat U (fun r => r = true ↔ M = N) := by
  unfold TMat.eq
  rw [check_dims_sat hA.shape hB.shape]
  simp only [ok_bind]
  rw [hA.shape.nr]
  exact (meqLoop_sat H hA hB m 0 rfl).mono fun r hr => hr.trans ⟨fun h => funext fun j => h j (Nat.zero_le _), fun h j _ => by rw [h]⟩

end Spffl
