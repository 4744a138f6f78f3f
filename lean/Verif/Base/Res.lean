/-
Outcome monad for modelled C++ calls, 32-bit `int` arithmetic with explicit undefined behaviour, and
loop combinators with their invariant rules.
-/
import Mathlib.Tactic.Common
import Mathlib.Tactic.Linarith

namespace Spffl

/-- Outcome of a modelled C++ call.
* `ok v`     : normal return;
* `throw`    : a C++ exception leaves the call;
* `ub`       : the call executes undefined behaviour;
* `timeout`  : a fuel-indexed loop exhausted its fuel (used to speak about termination). -/
inductive Res (α : Type u) where
  | ok (a : α)
  | throw
  | ub
  | timeout
deriving DecidableEq, Repr

namespace Res

variable {α : Type u} {β : Type v}

@[inline] protected def bind : Res α → (α → Res β) → Res β
  | ok a, f => f a
  | throw, _ => throw
  | ub, _ => ub
  | timeout, _ => timeout

instance : Monad Res where
  pure := Res.ok
  bind := Res.bind

@[simp] theorem pure_eq (a : α) : (pure a : Res α) = ok a := rfl
@[simp] theorem ok_bind {α β : Type u} (a : α) (f : α → Res β) : (ok a >>= f) = f a := rfl
@[simp] theorem throw_bind {α β : Type u} (f : α → Res β) : ((throw : Res α) >>= f) = throw := rfl
@[simp] theorem ub_bind {α β : Type u} (f : α → Res β) : ((ub : Res α) >>= f) = ub := rfl
@[simp] theorem timeout_bind {α β : Type u} (f : α → Res β) :
    ((timeout : Res α) >>= f) = timeout := rfl
@[simp] theorem map_ok {α β : Type u} (f : α → β) (a : α) : (f <$> (ok a : Res α)) = ok (f a) := rfl

instance : LawfulMonad Res := LawfulMonad.mk' _
  (id_map := by intro α x; cases x <;> rfl)
  (pure_bind := by intros; rfl)
  (bind_assoc := by intro α β γ x f g; cases x <;> rfl)
  (bind_pure_comp := by intros; rfl)

/-- `r.Ok P`: the call returns normally with a value satisfying `P` (total correctness). -/
def Ok (r : Res α) (P : α → Prop) : Prop := ∃ a, r = ok a ∧ P a

@[simp] theorem Ok_ok (a : α) (P : α → Prop) : (ok a).Ok P ↔ P a := by
  constructor
  · rintro ⟨b, h, hb⟩; cases h; exact hb
  · intro h; exact ⟨a, rfl, h⟩
@[simp] theorem Ok_throw (P : α → Prop) : (throw : Res α).Ok P ↔ False := by
  constructor
  · rintro ⟨b, h, _⟩; cases h
  · exact False.elim
@[simp] theorem Ok_ub (P : α → Prop) : (ub : Res α).Ok P ↔ False := by
  constructor
  · rintro ⟨b, h, _⟩; cases h
  · exact False.elim
@[simp] theorem Ok_timeout (P : α → Prop) : (timeout : Res α).Ok P ↔ False := by
  constructor
  · rintro ⟨b, h, _⟩; cases h
  · exact False.elim

theorem Ok.mono {r : Res α} {P Q : α → Prop} (h : r.Ok P) (hpq : ∀ a, P a → Q a) : r.Ok Q := by
  obtain ⟨a, ha, hp⟩ := h; exact ⟨a, ha, hpq a hp⟩

theorem Ok.bind {α β : Type u} {r : Res α} {f : α → Res β} {P : α → Prop} {Q : β → Prop}
    (h : r.Ok P) (hf : ∀ a, P a → (f a).Ok Q) : (r >>= f).Ok Q := by
  obtain ⟨a, ha, hp⟩ := h; subst ha; exact hf a hp

theorem Ok.and {r : Res α} {P Q : α → Prop} (h : r.Ok P) (h' : r.Ok Q) :
    r.Ok (fun a => P a ∧ Q a) := by
  obtain ⟨a, ha, hp⟩ := h; subst ha; exact ⟨a, rfl, hp, by simpa using h'⟩

theorem Ok_eq_iff {r : Res α} {a : α} : r.Ok (fun b => b = a) ↔ r = ok a := by
  constructor
  · rintro ⟨b, h, rfl⟩; exact h
  · rintro rfl; simp

theorem bind_eq_ok {α β : Type u} {r : Res α} {f : α → Res β} {b : β} :
    (r >>= f) = ok b ↔ ∃ a, r = ok a ∧ f a = ok b := by
  cases r <;> simp

end Res

open Res

/-! ### 32-bit `int` -/

def INT_MAX : Int := 2147483647
def INT_MIN : Int := -2147483648

/-- Representable as a 32-bit `int`. -/
def InInt (x : Int) : Prop := -2147483648 ≤ x ∧ x ≤ 2147483647

instance (x : Int) : Decidable (InInt x) := by unfold InInt; infer_instance

/-- Result of a signed operation: undefined behaviour when not representable. -/
def chk (x : Int) : Res Int := if InInt x then ok x else ub

theorem chk_ok {x : Int} (h : InInt x) : chk x = ok x := by simp [chk, h]
theorem chk_ub {x : Int} (h : ¬ InInt x) : chk x = ub := by simp [chk, h]

def iadd (a b : Int) : Res Int := chk (a + b)
def isub (a b : Int) : Res Int := chk (a - b)
def imul (a b : Int) : Res Int := chk (a * b)
def ineg (a : Int) : Res Int := chk (-a)
/-- C++ `/`: truncated; division by zero and `INT_MIN / -1` are undefined. -/
def idiv (a b : Int) : Res Int := if b = 0 then ub else chk (a.tdiv b)
/-- C++ `%`: sign of the dividend; undefined exactly when `/` is. -/
def imod (a b : Int) : Res Int :=
  if b = 0 then ub else if InInt (a.tdiv b) then ok (a.tmod b) else ub

/-- `x << k` on a 32-bit `int` under C++20: shift counts outside `0..31` are undefined, otherwise the
result is `x * 2^k` reduced to the signed 32-bit range. -/
def ishl (x : Int) (k : Int) : Res Int :=
  if 0 ≤ k ∧ k < 32 then ok (Int.bmod (x * 2 ^ k.toNat) (2 ^ 32)) else ub

/-! ### Loops -/

/-- `n` iterations with index starting at `lo`, ascending. -/
def loopUp {σ : Type u} (body : Nat → σ → Res σ) : Nat → Nat → σ → Res σ
  | 0, _, s => ok s
  | n + 1, lo, s => do let s' ← body lo s; loopUp body n (lo + 1) s'

/-- `for (i = lo; i < hi; i++) s = body i s`. -/
def forUp {σ : Type u} (lo hi : Nat) (s : σ) (body : Nat → σ → Res σ) : Res σ :=
  loopUp body (hi - lo) lo s

/-- `for (i = lo + n - 1; i >= lo; i--) s = body i s`. -/
def loopDown {σ : Type u} (body : Nat → σ → Res σ) (lo : Nat) : Nat → σ → Res σ
  | 0, s => ok s
  | n + 1, s => do let s' ← body (lo + n) s; loopDown body lo n s'

/-- `for (i = hi - 1; i >= lo; i--) s = body i s` (note: starts at `hi - 1`). -/
def forDown {σ : Type u} (hi lo : Nat) (s : σ) (body : Nat → σ → Res σ) : Res σ :=
  loopDown body lo (hi - lo) s

theorem loopUp_ok {σ : Type u} {body : Nat → σ → Res σ} (I : Nat → σ → Prop) :
    ∀ (n lo : Nat) (s : σ), I lo s →
      (∀ i s, lo ≤ i → i < lo + n → I i s → (body i s).Ok (I (i + 1))) →
      (loopUp body n lo s).Ok (I (lo + n)) := by
  intro n
  induction n with
  | zero => intro lo s h _; simpa [loopUp] using h
  | succ n ih =>
    intro lo s h hb
    refine Res.Ok.bind (hb lo s le_rfl (by omega) h) fun s' hs' => ?_
    have := ih (lo + 1) s' hs' (fun i s h1 h2 h3 => hb i s (by omega) (by omega) h3)
    rwa [show lo + 1 + n = lo + (n + 1) by omega] at this

/-- Invariant rule for ascending loops. -/
theorem forUp_ok {σ : Type u} {body : Nat → σ → Res σ} (I : Nat → σ → Prop) {lo hi : Nat}
    {s : σ} (hle : lo ≤ hi) (h0 : I lo s)
    (hb : ∀ i s, lo ≤ i → i < hi → I i s → (body i s).Ok (I (i + 1))) :
    (forUp lo hi s body).Ok (I hi) := by
  have := loopUp_ok I (hi - lo) lo s h0 (fun i s h1 h2 h3 => hb i s h1 (by omega) h3)
  rwa [show lo + (hi - lo) = hi by omega] at this

theorem loopDown_ok {σ : Type u} {body : Nat → σ → Res σ} (I : Nat → σ → Prop) (lo : Nat) :
    ∀ (n : Nat) (s : σ), I (lo + n) s →
      (∀ i s, lo ≤ i → i < lo + n → I (i + 1) s → (body i s).Ok (I i)) →
      (loopDown body lo n s).Ok (I lo) := by
  intro n
  induction n with
  | zero => intro s h _; simpa [loopDown] using h
  | succ n ih =>
    intro s h hb
    refine Res.Ok.bind (hb (lo + n) s (by omega) (by omega) h) fun s' hs' => ?_
    exact ih s' hs' (fun i s h1 h2 h3 => hb i s h1 (by omega) h3)

/-- Invariant rule for descending loops: `I k` holds once all indices `≥ k` have been processed. -/
theorem forDown_ok {σ : Type u} {body : Nat → σ → Res σ} (I : Nat → σ → Prop) {lo hi : Nat}
    {s : σ} (hle : lo ≤ hi) (h0 : I hi s)
    (hb : ∀ i s, lo ≤ i → i < hi → I (i + 1) s → (body i s).Ok (I i)) :
    (forDown hi lo s body).Ok (I lo) := by
  refine loopDown_ok I lo (hi - lo) s ?_ (fun i s h1 h2 h3 => hb i s h1 (by omega) h3)
  rwa [show lo + (hi - lo) = hi by omega]

theorem forUp_self {σ : Type u} {body : Nat → σ → Res σ} {lo hi : Nat} {s : σ} (h : hi ≤ lo) :
    forUp lo hi s body = ok s := by
  unfold forUp; rw [show hi - lo = 0 by omega]; rfl

/-! ### Checked array access -/

/-- `xs[i]` on a raw C array / `std::vector`: undefined out of bounds. -/
def rd {α : Type u} (xs : List α) (i : Nat) : Res α :=
  match xs[i]? with
  | some a => ok a
  | none => ub

/-- `xs[i] = v`: undefined out of bounds. -/
def wr {α : Type u} (xs : List α) (i : Nat) (v : α) : Res (List α) :=
  if i < xs.length then ok (xs.set i v) else ub

theorem rd_ok {α : Type u} {xs : List α} {i : Nat} (h : i < xs.length) : rd xs i = ok xs[i] := by
  simp [rd, h]
theorem wr_ok {α : Type u} {xs : List α} {i : Nat} {v : α} (h : i < xs.length) :
    wr xs i v = ok (xs.set i v) := by simp [wr, h]

end Spffl
