/-
Rules for `mapM` / `foldlM` / `foldrM` in the outcome monad, and list facts.
-/
import Verif.Base.Res

namespace Spffl
open Res

theorem mapM_ok {α β : Type} {f : α → Res β} {P : α → β → Prop} : ∀ {l : List α},
    (∀ a ∈ l, (f a).Ok (P a)) → (l.mapM f).Ok (List.Forall₂ P l)
  | [], _ => by simp
  | a :: l, h => by
    rw [List.mapM_cons]
    refine (h a (by simp)).bind fun b hb => ?_
    refine (mapM_ok (l := l) fun a' ha' => h a' (by simp [ha'])).bind fun bs hbs => ?_
    simp [hb, hbs]

/-- `foldlM` invariant rule: `I` relates the already processed prefix to the state. -/
theorem foldlM_ok {α σ : Type} {f : σ → α → Res σ} (I : List α → σ → Prop) :
    ∀ (l pre : List α) (s : σ), I pre s →
      (∀ pre a s, a ∈ l → I pre s → (f s a).Ok (I (pre ++ [a]))) →
      (l.foldlM f s).Ok (I (pre ++ l))
  | [], pre, s, h, _ => by simpa using h
  | a :: l, pre, s, h, hf => by
    rw [List.foldlM_cons]
    refine (hf pre a s (by simp) h).bind fun s' hs' => ?_
    have := foldlM_ok I l (pre ++ [a]) s' hs' (fun pre b s hb hI => hf pre b s (by simp [hb]) hI)
    simpa using this

theorem forall₂_set {α β : Type} {P : α → β → Prop} : ∀ {l : List α} {l' : List β} {i : Nat} {a : α} {b : β},
    List.Forall₂ P l l' → P a b → List.Forall₂ P (l.set i a) (l'.set i b)
  | [], [], _, _, _, _, _ => by simp
  | x :: l, y :: l', 0, a, b, h, hab => by
    cases h with
    | cons h1 h2 => exact List.Forall₂.cons hab h2
  | x :: l, y :: l', i + 1, a, b, h, hab => by
    cases h with
    | cons h1 h2 => exact List.Forall₂.cons h1 (forall₂_set h2 hab)

theorem forall₂_insertIdx {α β : Type} {P : α → β → Prop} :
    ∀ {l : List α} {l' : List β} {i : Nat} {a : α} {b : β},
    List.Forall₂ P l l' → P a b → List.Forall₂ P (l.insertIdx i a) (l'.insertIdx i b)
  | l, l', 0, a, b, h, hab => by simpa using ⟨hab, h⟩
  | [], [], i + 1, _, _, _, _ => by simp
  | x :: l, y :: l', i + 1, a, b, h, hab => by
    cases h with
    | cons h1 h2 =>
      simp only [List.insertIdx_succ_cons]
      exact List.Forall₂.cons h1 (forall₂_insertIdx h2 hab)

theorem forall₂_getElem {α β : Type} {P : α → β → Prop} {l : List α} {l' : List β}
    (h : List.Forall₂ P l l') (i : Nat) (h1 : i < l.length) (h2 : i < l'.length) : P l[i] l'[i] := by
  induction h generalizing i with
  | nil => simp at h1
  | cons ha _ ih =>
    cases i with
    | zero => simpa using ha
    | succ i => simpa using ih i (by simpa using h1) (by simpa using h2)

end Spffl
