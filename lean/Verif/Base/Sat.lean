/-
A postcondition with an optional allowance for undefined behaviour.  With `U := False` it is total
correctness; with `U := True` it is "no exception, no divergence, and if the call does not run into
undefined behaviour the result is right", which is what holds for coefficient types whose arithmetic may
overflow (rationals with `int` parts).
-/
import Verif.Base.Lists
import Verif.Base.Ops
import Mathlib.Tactic.Ring
import Mathlib.Algebra.Group.Basic

namespace Spffl
namespace Res

/-- Normal return with `P`, or (only if `U`) undefined behaviour. -/
def Sat {α : Type u} (U : Prop) (r : Res α) (P : α → Prop) : Prop :=
  match r with
  | ok a => P a
  | ub => U
  | throw => False
  | timeout => False

/-- Exception, or (only if `U`) undefined behaviour. -/
def Throws {α : Type u} (U : Prop) (r : Res α) : Prop := r = throw ∨ (U ∧ r = ub)

variable {α β : Type u} {U : Prop}

@[simp] theorem Sat_ok (a : α) (P : α → Prop) : (ok a).Sat U P ↔ P a := Iff.rfl
@[simp] theorem Sat_ub (P : α → Prop) : (ub : Res α).Sat U P ↔ U := Iff.rfl
@[simp] theorem Sat_throw (P : α → Prop) : (throw : Res α).Sat U P ↔ False := Iff.rfl
@[simp] theorem Sat_timeout (P : α → Prop) : (timeout : Res α).Sat U P ↔ False := Iff.rfl

theorem Ok.sat {r : Res α} {P : α → Prop} (h : r.Ok P) : r.Sat U P := by
  obtain ⟨a, rfl, hp⟩ := h; exact hp

theorem sat_false {r : Res α} {P : α → Prop} : r.Sat False P ↔ r.Ok P := by
  cases r <;> simp

theorem sat_iff {r : Res α} {P : α → Prop} : r.Sat U P ↔ r.Ok P ∨ (U ∧ r = ub) := by
  cases r <;> simp

theorem Sat.mono {r : Res α} {P Q : α → Prop} (h : r.Sat U P) (hpq : ∀ a, P a → Q a) : r.Sat U Q := by
  cases r <;> simp_all

theorem Sat.bind {r : Res α} {f : α → Res β} {P : α → Prop} {Q : β → Prop}
    (h : r.Sat U P) (hf : ∀ a, P a → (f a).Sat U Q) : (r >>= f).Sat U Q := by
  cases r with
  | ok a => exact hf a h
  | ub => exact h
  | throw => exact h
  | timeout => exact h

theorem Sat.and {r : Res α} {P Q : α → Prop} (h : r.Sat U P) (h' : r.Sat U Q) :
    r.Sat U (fun a => P a ∧ Q a) := by
  cases r <;> simp_all

theorem Sat.throws_bind {r : Res α} {f : α → Res β} {P : α → Prop}
    (h : r.Sat U P) (hf : ∀ a, P a → (f a).Throws U) : (r >>= f).Throws U := by
  cases r with
  | ok a => exact hf a h
  | ub => exact Or.inr ⟨h, rfl⟩
  | throw => exact h.elim
  | timeout => exact h.elim

theorem Throws.bind {r : Res α} {f : α → Res β} (h : r.Throws U) : (r >>= f).Throws U := by
  rcases h with rfl | ⟨hu, rfl⟩
  · exact Or.inl rfl
  · exact Or.inr ⟨hu, rfl⟩

theorem throws_false {r : Res α} : r.Throws False ↔ r = throw := by simp [Throws]

end Res
open Res

variable {U : Prop}

theorem loopUp_sat {σ : Type u} {body : Nat → σ → Res σ} (I : Nat → σ → Prop) :
    ∀ (n lo : Nat) (s : σ), I lo s →
      (∀ i s, lo ≤ i → i < lo + n → I i s → (body i s).Sat U (I (i + 1))) →
      (loopUp body n lo s).Sat U (I (lo + n)) := by
  intro n
  induction n with
  | zero => intro lo s h _; simpa [loopUp] using h
  | succ n ih =>
    intro lo s h hb
    refine Res.Sat.bind (hb lo s le_rfl (by omega) h) fun s' hs' => ?_
    have := ih (lo + 1) s' hs' (fun i s h1 h2 h3 => hb i s (by omega) (by omega) h3)
    rwa [show lo + 1 + n = lo + (n + 1) by omega] at this

theorem forUp_sat {σ : Type u} {body : Nat → σ → Res σ} (I : Nat → σ → Prop) {lo hi : Nat}
    {s : σ} (hle : lo ≤ hi) (h0 : I lo s)
    (hb : ∀ i s, lo ≤ i → i < hi → I i s → (body i s).Sat U (I (i + 1))) :
    (forUp lo hi s body).Sat U (I hi) := by
  have := loopUp_sat I (hi - lo) lo s h0 (fun i s h1 h2 h3 => hb i s h1 (by omega) h3)
  rwa [show lo + (hi - lo) = hi by omega] at this

theorem loopDown_sat {σ : Type u} {body : Nat → σ → Res σ} (I : Nat → σ → Prop) (lo : Nat) :
    ∀ (n : Nat) (s : σ), I (lo + n) s →
      (∀ i s, lo ≤ i → i < lo + n → I (i + 1) s → (body i s).Sat U (I i)) →
      (loopDown body lo n s).Sat U (I lo) := by
  intro n
  induction n with
  | zero => intro s h _; simpa [loopDown] using h
  | succ n ih =>
    intro s h hb
    refine Res.Sat.bind (hb (lo + n) s (by omega) (by omega) h) fun s' hs' => ?_
    exact ih s' hs' (fun i s h1 h2 h3 => hb i s h1 (by omega) h3)

theorem forDown_sat {σ : Type u} {body : Nat → σ → Res σ} (I : Nat → σ → Prop) {lo hi : Nat}
    {s : σ} (hle : lo ≤ hi) (h0 : I hi s)
    (hb : ∀ i s, lo ≤ i → i < hi → I (i + 1) s → (body i s).Sat U (I i)) :
    (forDown hi lo s body).Sat U (I lo) := by
  refine loopDown_sat I lo (hi - lo) s ?_ (fun i s h1 h2 h3 => hb i s h1 (by omega) h3)
  rwa [show lo + (hi - lo) = hi by omega]

/-- Square-and-multiply computes `z * x^e` for any commutative multiplication that is refined. -/
theorem sqMulLoop_sat {α R : Type} [CommMonoid R] {mul : α → α → Res α} {rep : α → R → Prop}
    (hmul : ∀ {a b x y}, rep a x → rep b y → (mul a b).Sat U (fun r => rep r (x * y))) :
    ∀ (k : Nat) (rv xp : α) (x z : R) (e : Nat), e < 2 ^ k → rep rv z → rep xp x →
      (sqMulLoop mul k rv xp e).Sat U (fun r => rep r (z * x ^ e))
  | 0, rv, xp, x, z, e, he, hz, hx => by
    have : e = 0 := by simpa using he
    subst this; simpa [sqMulLoop] using hz
  | k + 1, rv, xp, x, z, e, he, hz, hx => by
    unfold sqMulLoop
    split
    · rename_i h; subst h; simpa using hz
    · have hs : (sqMulLoop.step mul rv xp e).Sat U (fun r => rep r (z * x ^ (e % 2))) := by
        unfold sqMulLoop.step
        split
        · rename_i h; rw [h, pow_one]; exact hmul hz hx
        · rename_i h; rw [show e % 2 = 0 by omega]; simpa using hz
      refine hs.bind fun rv' h1 => ?_
      refine (hmul hx hx).bind fun xp' h2 => ?_
      refine (sqMulLoop_sat hmul k rv' xp' (x * x) _ (e / 2) (by omega) h1 h2).mono fun r hr => ?_
      have : z * x ^ e = z * x ^ (e % 2) * (x * x) ^ (e / 2) := by
        rw [← pow_two, ← pow_mul, mul_assoc, ← pow_add]; congr 2; omega
      rwa [this]

/-! ### Arrays -/

/-- element `i` exists and satisfies `P` -/
def At {α : Type u} (cs : List α) (i : Nat) (P : α → Prop) : Prop := ∃ e, cs[i]? = some e ∧ P e

theorem At.lt {α : Type u} {cs : List α} {i : Nat} {P : α → Prop} (h : At cs i P) : i < cs.length := by
  obtain ⟨e, he, _⟩ := h
  exact (List.getElem?_eq_some_iff.mp he).1

theorem At.rd {α : Type u} {cs : List α} {i : Nat} {P : α → Prop} (h : At cs i P) : ∃ e, Spffl.rd cs i = ok e ∧ P e := by
  obtain ⟨e, he, hp⟩ := h
  exact ⟨e, by unfold Spffl.rd; rw [he], hp⟩

theorem At.mono {α : Type u} {cs : List α} {i : Nat} {P Q : α → Prop} (h : At cs i P) (hpq : ∀ a, P a → Q a) :
    At cs i Q := by
  obtain ⟨e, he, hp⟩ := h; exact ⟨e, he, hpq e hp⟩

theorem At.congr {α : Type u} {cs ds : List α} {i j : Nat} {P : α → Prop} (h : At cs i P)
    (he : ds[j]? = cs[i]?) : At ds j P := by
  obtain ⟨e, h1, hp⟩ := h; exact ⟨e, by rw [he, h1], hp⟩

theorem rd_sat {α : Type u} {cs : List α} {i : Nat} {P : α → Prop} (h : At cs i P) : (rd cs i).Sat U P := by
  obtain ⟨e, he, hp⟩ := h.rd; rw [he]; exact hp

theorem at_set_self {α : Type u} {cs : List α} {i : Nat} {v : α} {P : α → Prop} (h : i < cs.length) (hv : P v) :
    At (cs.set i v) i P := ⟨v, by rw [List.getElem?_set_self h], hv⟩

theorem wr_sat {α : Type u} {cs : List α} {i : Nat} {v : α} (h : i < cs.length) :
    (wr cs i v).Sat U (fun r => r = cs.set i v) := by rw [wr_ok h]; rfl

/-- ascending store loop: slots `lo..hi-1` are written one after the other -/
theorem fillUp_sat {α : Type} {f : Nat → List α → Res α} {P : ℕ → α → Prop} {lo hi : ℕ} {cs : List α}
    (h1 : lo ≤ hi) (h2 : hi ≤ cs.length)
    (hf : ∀ i s, lo ≤ i → i < hi → s.length = cs.length → (∀ j, j < lo ∨ i ≤ j → s[j]? = cs[j]?) →
      (∀ j, lo ≤ j → j < i → At s j (P j)) → (f i s).Sat U (P i)) :
    (forUp lo hi cs fun i s => store s i (f i s)).Sat U (fun r => r.length = cs.length ∧
      (∀ j, lo ≤ j → j < hi → At r j (P j)) ∧ ∀ j, j < lo ∨ hi ≤ j → r[j]? = cs[j]?) := by
  refine forUp_sat (fun i s => s.length = cs.length ∧ (∀ j, lo ≤ j → j < i → At s j (P j)) ∧
    ∀ j, j < lo ∨ i ≤ j → s[j]? = cs[j]?) h1 ⟨rfl, fun j _ _ => by omega, fun _ _ => rfl⟩ ?_
  intro i s hi1 hi2 ⟨hl, ha, hb⟩
  unfold store
  refine (hf i s hi1 hi2 hl hb ha).bind fun v hv => ?_
  rw [wr_ok (by omega), Sat_ok]
  refine ⟨by simpa using hl, fun j hj1 hj2 => ?_, fun j hj => ?_⟩
  · rcases Nat.lt_or_ge j i with h | h
    · exact (ha j hj1 h).congr (List.getElem?_set_ne (by omega))
    · have : j = i := by omega
      subst this; exact at_set_self (by omega) hv
  · rw [List.getElem?_set_ne (by omega)]
    exact hb j (by omega)

/-- descending store loop -/
theorem fillDown_sat {α : Type} {f : Nat → List α → Res α} {P : ℕ → α → Prop} {lo hi : ℕ} {cs : List α}
    (h1 : lo ≤ hi) (h2 : hi ≤ cs.length)
    (hf : ∀ i s, lo ≤ i → i < hi → s.length = cs.length → (∀ j, j ≤ i ∨ hi ≤ j → s[j]? = cs[j]?) →
      (f i s).Sat U (P i)) :
    (forDown hi lo cs fun i s => store s i (f i s)).Sat U (fun r => r.length = cs.length ∧
      (∀ j, lo ≤ j → j < hi → At r j (P j)) ∧ ∀ j, j < lo ∨ hi ≤ j → r[j]? = cs[j]?) := by
  refine forDown_sat (fun i s => s.length = cs.length ∧ (∀ j, i ≤ j → j < hi → At s j (P j)) ∧
    ∀ j, j < i ∨ hi ≤ j → s[j]? = cs[j]?) h1 ⟨rfl, fun j _ _ => by omega, fun _ _ => rfl⟩ ?_
  intro i s hi1 hi2 ⟨hl, ha, hb⟩
  unfold store
  refine (hf i s hi1 hi2 hl fun j hj => hb j (by omega)).bind fun v hv => ?_
  rw [wr_ok (by omega), Sat_ok]
  refine ⟨by simpa using hl, fun j hj1 hj2 => ?_, fun j hj => ?_⟩
  · rcases Nat.lt_or_ge i j with h | h
    · exact (ha j h hj2).congr (List.getElem?_set_ne (by omega))
    · have : j = i := by omega
      subst this; exact at_set_self (by omega) hv
  · rw [List.getElem?_set_ne (by omega)]
    exact hb j (by omega)

end Spffl
