/-
Proofs about the stack container.
-/
import Verif.Model.Stack
import Mathlib.Data.List.Basic

namespace Spffl
open Res
namespace Stack

variable {α : Type} {z : α}

/-! ### Specification: every stack is a list, top first -/

/-- One operation on a list of stacks; `none` if the stack named does not exist. -/
def sstep (S : List (Option (List α))) : Op α → Option (List (Option (List α)) × Option (Option α))
  | .create => some (S ++ [some []], none)
  | .copy i => match S[i]? with
    | some (some l) => some (S ++ [some l], none)
    | _ => none
  | .push i a => match S[i]? with
    | some (some l) => some (S.set i (some (a :: l)), none)
    | _ => none
  | .pop i => match S[i]? with
    | some (some l) => some (S.set i (some l.tail), some l.head?)
    | _ => none
  | .destroy i => match S[i]? with
    | some (some _) => some (S.set i none, none)
    | _ => none

def srun : List (Op α) → List (Option (List α)) → Option (List (Option (List α)) × List (Option α))
  | [], S => some (S, [])
  | o :: ops, S => (sstep S o).bind fun r => (srun ops r.1).map fun r' => (r'.1, r.2.toList ++ r'.2)

/-! ### Heap -/

theorem copyLoop_ok {h : Heap α} {src dst : Nat} {a b : List α} {n : Nat} (hs : h[src]? = some (some a))
    (hd : h[dst]? = some (some b)) (hne : src ≠ dst) (ha : n ≤ a.length) (hb : n ≤ b.length) :
    copyLoop h src dst n = ok (h.set dst (some (a.take n ++ b.drop n))) := by
  have hdl : dst < h.length := (List.getElem?_eq_some_iff.1 hd).1
  rw [copyLoop, Int.toNat_natCast, ← Ok_eq_iff]
  refine forUp_ok (fun i g => g = h.set dst (some (a.take i ++ b.drop i))) (Nat.zero_le n) ?_ ?_
  · obtain ⟨_, e⟩ := List.getElem?_eq_some_iff.1 hd
    rw [List.take_zero, List.nil_append, List.drop_zero, ← e, List.set_getElem_self]
  · rintro i g - hi rfl
    have hgs : (h.set dst (some (a.take i ++ b.drop i)))[src]? = some (some a) := by
      rw [List.getElem?_set_ne (Ne.symm hne), hs]
    have hgd : (h.set dst (some (a.take i ++ b.drop i)))[dst]? = some (some (a.take i ++ b.drop i)) := by
      rw [List.getElem?_set_self hdl]
    have hl : i < (a.take i ++ b.drop i).length := by simp; omega
    rw [get, hgs]
    simp only [Int.toNat_natCast]
    rw [if_neg (by omega), rd_ok (by omega), ok_bind, put, hgd]
    simp only [Int.toNat_natCast]
    rw [if_neg (by omega), wr_ok hl, ok_bind, Ok_ok, List.set_set]
    congr 2
    have hx : (a.take i).length = i := by simp; omega
    rw [List.set_append_right _ _ (by omega), hx, Nat.sub_self, List.drop_eq_getElem_cons (by omega : i < b.length),
      List.set_cons_zero, List.take_succ_eq_append_getElem (by omega : i < a.length)]
    simp only [List.append_assoc, List.singleton_append]

/-- The stack object `s` holds `l` (top first); `P` bounds its growth. -/
structure Good (h : Heap α) (P : Nat) (s : Stk) (l : List α) : Prop where
  free : s.freeidx = l.length
  le : (l.length : Int) ≤ s.num_allocated
  bound : s.num_allocated ≤ P + 10
  block : ∃ a : List α, h[s.elements]? = some (some a) ∧ (a.length : Int) = s.num_allocated ∧
    a.take l.length = l.reverse

theorem Good.set {h : Heap α} {P : Nat} {s : Stk} {l : List α} (g : Good h P s l) {p : Nat} {b : Option (List α)}
    (hp : s.elements ≠ p) : Good (h.set p b) P s l := by
  obtain ⟨a, h1, h2⟩ := g.block
  exact ⟨g.free, g.le, g.bound, a, by rw [List.getElem?_set_ne (Ne.symm hp), h1], h2⟩

theorem Good.lt {h : Heap α} {P : Nat} {s : Stk} {l : List α} (g : Good h P s l) : s.elements < h.length := by
  obtain ⟨a, h1, _⟩ := g.block
  exact (List.getElem?_eq_some_iff.1 h1).1

theorem Good.append {h : Heap α} {P : Nat} {s : Stk} {l : List α} (g : Good h P s l) {b : Heap α} :
    Good (h ++ b) P s l := by
  obtain ⟨a, h1, h2⟩ := g.block
  exact ⟨g.free, g.le, g.bound, a, by rw [List.getElem?_append_left g.lt, h1], h2⟩

theorem Good.mono {h : Heap α} {P Q : Nat} {s : Stk} {l : List α} (g : Good h P s l) (hPQ : P ≤ Q) : Good h Q s l :=
  ⟨g.free, g.le, by have := g.bound; omega, g.block⟩

theorem new_ok (h : Heap α) {n : Int} (hn : 0 ≤ n) :
    new z h n = ok (h ++ [some (List.replicate n.toNat z)], h.length) := by
  rw [new, if_neg (by omega)]

theorem ctor_ok (h : Heap α) (P : Nat) : (ctor z h).Ok fun r =>
    Good r.1 P r.2 [] ∧ r.2.elements = h.length ∧ r.1.length = h.length + 1 ∧
      ∀ s l, Good h P s l → Good r.1 P s l := by
  rw [ctor, new_ok h (by norm_num), ok_bind, Ok_ok]
  refine ⟨⟨rfl, by simp, by simp, List.replicate 10 z, ?_, by simp, by simp⟩, rfl, by simp, fun s l g => g.append⟩
  rw [List.getElem?_append_right le_rfl]; simp

theorem copy_ok {h : Heap α} {P : Nat} {s : Stk} {l : List α} (g : Good h P s l) : (copy z h s).Ok fun r =>
    Good r.1 P r.2 l ∧ r.2.elements = h.length ∧ r.1.length = h.length + 1 ∧
      ∀ s l, Good h P s l → Good r.1 P s l := by
  have hle := g.le
  obtain ⟨a, h1, h2, h3⟩ := g.block
  have hd : (h ++ [some (List.replicate s.num_allocated.toNat z)])[h.length]?
      = some (some (List.replicate s.num_allocated.toNat z)) := by
    rw [List.getElem?_append_right le_rfl]; simp
  have hs : (h ++ [some (List.replicate s.num_allocated.toNat z)])[s.elements]? = some (some a) := by
    rw [List.getElem?_append_left g.lt, h1]
  rw [copy, new_ok h (by omega), ok_bind, g.free,
    copyLoop_ok (n := l.length) hs hd (by have := g.lt; omega) (by omega) (by simp; omega), ok_bind, Ok_ok]
  refine ⟨⟨rfl, hle, g.bound, _, List.getElem?_set_self (by simp), ?_, ?_⟩, rfl, by simp, fun t m g' => ?_⟩
  · simp; omega
  · rw [List.take_append_of_le_length (by simp; omega), List.take_take, Nat.min_self, h3]
  · exact g'.append.set (by have := g'.lt; omega)

theorem dtor_ok {h : Heap α} {P : Nat} {s : Stk} {l : List α} (g : Good h P s l) : (dtor h s).Ok fun r =>
    ∀ t m, t.elements ≠ s.elements → Good h P t m → Good r P t m := by
  obtain ⟨a, h1, h2, h3⟩ := g.block
  rw [dtor, delete, h1]
  exact (Ok_ok _ _).2 fun t m hne g' => g'.set hne

theorem put_ok {h : Heap α} {p : Nat} {b : List α} {i : Nat} {x : α} (hp : h[p]? = some (some b)) (hi : i < b.length) :
    put h p i x = ok (h.set p (some (b.set i x))) := by
  rw [put, hp]
  simp only [Int.toNat_natCast]
  rw [if_neg (by omega), wr_ok hi, ok_bind]

theorem take_set_push {a : List α} {l : List α} {x : α} (hl : l.length < a.length) (h : a.take l.length = l.reverse) :
    (a.set l.length x).take (l.length + 1) = (x :: l).reverse := by
  rw [List.take_succ_eq_append_getElem (by simpa using hl), List.getElem_set_self, List.take_set_of_le le_rfl, h,
    List.reverse_cons]

theorem push_ok {h : Heap α} {P : Nat} {s : Stk} {l : List α} (g : Good h P s l) (hP : P + 11 ≤ 2147483647)
    (hl : l.length ≤ P) (x : α) :
    (push z h s x).Ok fun r =>
      Good r.1 (P + 1) r.2 (x :: l) ∧ (r.2.elements = s.elements ∨ r.2.elements = h.length) ∧
      ∀ t m, t.elements ≠ s.elements → Good h P t m → Good r.1 (P + 1) t m ∧ t.elements ≠ r.2.elements := by
  have hle := g.le
  have hbd := g.bound
  have hfr := g.free
  obtain ⟨a, h1, h2, h3⟩ := g.block
  rw [push]
  by_cases hfull : s.num_allocated ≤ s.freeidx
  · have hal : a.length = l.length := by omega
    rw [if_pos hfull, iadd, chk_ok (by unfold InInt; omega), ok_bind, new_ok h (by omega), ok_bind]
    set n := (s.num_allocated + 10).toNat with hn
    have hd : (h ++ [some (List.replicate n z)])[h.length]? = some (some (List.replicate n z)) := by
      rw [List.getElem?_append_right le_rfl]; simp
    have hs : (h ++ [some (List.replicate n z)])[s.elements]? = some (some a) := by
      rw [List.getElem?_append_left g.lt, h1]
    have hlt := g.lt
    rw [hfr, copyLoop_ok (n := l.length) hs hd (by omega) (by omega) (by simp; omega), ok_bind]
    set B := a.take l.length ++ (List.replicate n z).drop l.length with hB
    have hBl : B.length = n := by rw [hB]; simp; omega
    rw [delete, List.getElem?_set_ne (by omega), hs]
    simp only
    rw [ok_bind, put_ok (b := B) (by rw [List.getElem?_set_ne (by omega), List.getElem?_set_self (by simp)]) (by omega), ok_bind,
      iadd, chk_ok (by unfold InInt; omega), ok_bind, Ok_ok]
    refine ⟨⟨by simp, by simp; omega, by push_cast; omega, B.set l.length x, ?_, ?_, ?_⟩, Or.inr rfl, fun t m hne g' => ⟨?_, ?_⟩⟩
    · rw [List.getElem?_set_self (by simp)]
    · simp only [List.length_set]; omega
    · refine take_set_push (by omega) ?_
      rw [hB, List.take_append_of_le_length (by simp; omega), List.take_take, Nat.min_self, h3]
    · have := g'.lt
      exact ((((g'.append).set (by omega)).set hne).set (by omega)).mono (by omega)
    · have := g'.lt
      exact Nat.ne_of_lt this
  · rw [if_neg hfull, hfr, put_ok h1 (by omega), ok_bind, iadd, chk_ok (by unfold InInt; omega), ok_bind, Ok_ok]
    refine ⟨⟨by simp, by simp; omega, by push_cast; omega, a.set l.length x, ?_, ?_, ?_⟩, Or.inl rfl, fun t m hne g' => ⟨?_, hne⟩⟩
    · rw [List.getElem?_set_self g.lt]
    · simpa using h2
    · exact take_set_push (by omega) h3
    · exact (g'.set hne).mono (by omega)

theorem pop_ok {h : Heap α} {P : Nat} {s : Stk} {l : List α} (g : Good h P s l) (hP : P + 11 ≤ 2147483647) :
    (pop h s).Ok fun r => Good h P r.1 l.tail ∧ r.1.elements = s.elements ∧ r.2 = l.head? := by
  have hle := g.le
  have hbd := g.bound
  have hfr := g.free
  obtain ⟨a, h1, h2, h3⟩ := g.block
  rw [pop, hfr]
  cases l with
  | nil => rw [if_neg (by simp), Ok_ok]; exact ⟨g, rfl, rfl⟩
  | cons x l =>
    rw [List.length_cons] at hle h3 ⊢
    push_cast at hle ⊢
    rw [if_pos (by omega), isub, chk_ok (by unfold InInt; omega), ok_bind, Int.add_sub_cancel, get, h1]
    simp only [Int.toNat_natCast]
    rw [if_neg (by omega), rd_ok (by omega), ok_bind, Ok_ok]
    have e : a.take l.length ++ [a[l.length]'(by omega)] = l.reverse ++ [x] := by
      rw [← List.take_succ_eq_append_getElem (by omega), h3, List.reverse_cons]
    obtain ⟨e1, e2⟩ := List.append_inj' e rfl
    simp only [List.cons.injEq, and_true] at e2
    refine ⟨⟨rfl, ?_, hbd, a, h1, h2, e1⟩, rfl, by simp [e2]⟩
    simp only [List.tail_cons]
    omega

/-! ### Whole programs -/

structure Inv (w : World α) (S : List (Option (List α))) (P : Nat) : Prop where
  len : w.objs.length = S.length
  good : ∀ (i : Nat) (s : Stk), w.objs[i]? = some (some s) → ∃ l, S[i]? = some (some l) ∧ l.length ≤ P ∧ Good w.heap P s l
  dead : ∀ i : Nat, w.objs[i]? = some none → S[i]? = some none
  inj : ∀ (i j : Nat) (s t : Stk), w.objs[i]? = some (some s) → w.objs[j]? = some (some t) → s.elements = t.elements → i = j

theorem Inv.live {w : World α} {S : List (Option (List α))} {P : Nat} (h : Inv w S P) {i : Nat} {l : List α}
    (hi : S[i]? = some (some l)) : ∃ s, w.objs[i]? = some (some s) ∧ l.length ≤ P ∧ Good w.heap P s l := by
  have hlt := (List.getElem?_eq_some_iff.1 hi).1
  rw [← h.len] at hlt
  cases e : w.objs[i] with
  | none =>
    have := h.dead i (by rw [List.getElem?_eq_getElem hlt, e])
    rw [hi] at this; simp at this
  | some s =>
    have hs : w.objs[i]? = some (some s) := by rw [List.getElem?_eq_getElem hlt, e]
    obtain ⟨l', h1, h2, h3⟩ := h.good i s hs
    rw [hi] at h1
    obtain rfl : l = l' := by simpa using h1
    exact ⟨s, hs, h2, h3⟩

/-- A new object at the end, everything else kept. -/
theorem Inv.add {w : World α} {S : List (Option (List α))} {P : Nat} (h : Inv w S P) {g : Heap α} {s : Stk} {l : List α}
    (h1 : Good g P s l) (h2 : s.elements = w.heap.length) (hl : l.length ≤ P)
    (h3 : ∀ s l, Good w.heap P s l → Good g P s l) :
    Inv ⟨g, w.objs ++ [some s]⟩ (S ++ [some l]) (P + 1) := by
  have key : ∀ (i : Nat) (t : Stk), (w.objs ++ [some s])[i]? = some (some t) →
      (i < w.objs.length ∧ w.objs[i]? = some (some t)) ∨ (i = w.objs.length ∧ t = s) := by
    intro i t hi
    rw [List.getElem?_append] at hi
    split at hi
    · exact Or.inl ⟨by assumption, hi⟩
    · right
      have := (List.getElem?_eq_some_iff.1 hi).1
      have hi0 : i = w.objs.length := by simp at this; omega
      subst hi0
      simp at hi
      exact ⟨rfl, hi.symm⟩
  constructor
  · simp [h.len]
  · intro i t hi
    rcases key i t hi with ⟨hlt, hi⟩ | ⟨rfl, rfl⟩
    · obtain ⟨m, e1, e2, e3⟩ := h.good i t hi
      exact ⟨m, by rw [List.getElem?_append_left (by rw [← h.len]; exact hlt), e1], by omega,
        (h3 _ _ e3).mono (by omega)⟩
    · exact ⟨l, by rw [h.len, List.getElem?_append_right le_rfl]; simp, by omega, h1.mono (by omega)⟩
  · intro i hi
    simp only at hi
    rw [List.getElem?_append] at hi
    split at hi
    · rename_i hlt
      rw [List.getElem?_append_left (by rw [← h.len]; exact hlt), h.dead i hi]
    · have := (List.getElem?_eq_some_iff.1 hi).1
      have hi0 : i = w.objs.length := by simp at this; omega
      subst hi0
      simp at hi
  · intro i j t u hi hj he
    rcases key i t hi with ⟨hlt, hi2⟩ | ⟨rfl, rfl⟩ <;> rcases key j u hj with ⟨hlt', hj2⟩ | ⟨rfl, rfl⟩
    · exact h.inj i j t u hi2 hj2 he
    · obtain ⟨m, _, _, e3⟩ := h.good i t hi2
      have := e3.lt; omega
    · obtain ⟨m, _, _, e3⟩ := h.good j u hj2
      have := e3.lt; omega
    · rfl

/-- One object replaced. -/
theorem Inv.update {w : World α} {S : List (Option (List α))} {P : Nat} (h : Inv w S P) {i : Nat} {s : Stk}
    {l : List α} (hi : w.objs[i]? = some (some s)) (g : Heap α) (s' : Option Stk) (l' : Option (List α))
    (h1 : ∀ t, s' = some t → ∃ m, l' = some m ∧ m.length ≤ P + 1 ∧ Good g (P + 1) t m ∧
      ∀ u m', u.elements ≠ s.elements → Good w.heap P u m' → u.elements ≠ t.elements)
    (h2 : s' = none → l' = none)
    (h3 : ∀ u m, u.elements ≠ s.elements → Good w.heap P u m → Good g (P + 1) u m) :
    Inv ⟨g, w.objs.set i s'⟩ (S.set i l') (P + 1) := by
  have hlt := (List.getElem?_eq_some_iff.1 hi).1
  have hlt' : i < S.length := by rw [← h.len]; exact hlt
  have key : ∀ (j : Nat) (t : Stk), (w.objs.set i s')[j]? = some (some t) →
      (j ≠ i ∧ w.objs[j]? = some (some t)) ∨ (j = i ∧ s' = some t) := by
    intro j t hj
    by_cases e : j = i
    · subst e
      rw [List.getElem?_set_self hlt] at hj
      exact Or.inr ⟨rfl, by simpa using hj⟩
    · rw [List.getElem?_set_ne (Ne.symm e)] at hj
      exact Or.inl ⟨e, hj⟩
  have other : ∀ (j : Nat) (t : Stk), j ≠ i → w.objs[j]? = some (some t) → t.elements ≠ s.elements :=
    fun j t hne hj he => hne (h.inj j i t s hj hi he)
  constructor
  · simp [h.len]
  · intro j t hj
    rcases key j t hj with ⟨hne, hj⟩ | ⟨rfl, e⟩
    · obtain ⟨m, e1, e2, e3⟩ := h.good j t hj
      exact ⟨m, by rw [List.getElem?_set_ne (Ne.symm hne), e1], by omega, h3 _ _ (other j t hne hj) e3⟩
    · obtain ⟨m, rfl, e2, e3, _⟩ := h1 t e
      exact ⟨m, by rw [List.getElem?_set_self hlt'], e2, e3⟩
  · intro j hj
    simp only at hj
    by_cases e : j = i
    · subst e
      rw [List.getElem?_set_self hlt] at hj
      rw [List.getElem?_set_self hlt', h2 (by simpa using hj)]
    · rw [List.getElem?_set_ne (Ne.symm e)] at hj ⊢
      exact h.dead j hj
  · intro j k t u hj hk he
    rcases key j t hj with ⟨hne, hj2⟩ | ⟨rfl, e⟩ <;> rcases key k u hk with ⟨hne', hk2⟩ | ⟨rfl, e'⟩
    · exact h.inj j k t u hj2 hk2 he
    · obtain ⟨m, e1, e2, e3⟩ := h.good j t hj2
      obtain ⟨m', -, -, -, e4⟩ := h1 u e'
      exact absurd he (e4 _ _ (other j t hne hj2) e3)
    · obtain ⟨m, e1, e2, e3⟩ := h.good k u hk2
      obtain ⟨m', -, -, -, e4⟩ := h1 t e
      exact absurd he.symm (e4 _ _ (other k u hne' hk2) e3)
    · rfl

theorem Inv.next {w : World α} {S : List (Option (List α))} {P : Nat} (h : Inv w S P) : Inv w S (P + 1) :=
  ⟨h.len, fun i s hi => by
    obtain ⟨l, h1, h2, h3⟩ := h.good i s hi
    exact ⟨l, h1, by omega, h3.mono (by omega)⟩, h.dead, h.inj⟩

theorem step_ok {w : World α} {S : List (Option (List α))} {P : Nat} (h : Inv w S P) (hP : P + 11 ≤ 2147483647)
    {o : Op α} {r : List (Option (List α)) × Option (Option α)} (hs : sstep S o = some r) :
    (step z w o).Ok fun x => Inv x.1 r.1 (P + 1) ∧ x.2 = r.2 := by
  cases o with
  | create =>
    simp only [sstep, Option.some.injEq] at hs
    subst hs
    refine Ok.bind (ctor_ok w.heap P) fun x ⟨h1, h2, _, h4⟩ => ?_
    exact (Ok_ok _ _).2 ⟨h.add h1 h2 (by simp) h4, rfl⟩
  | copy i =>
    simp only [sstep] at hs
    split at hs
    · rename_i l hl
      obtain ⟨s, hi, hlen, g⟩ := h.live hl
      simp only [Option.some.injEq] at hs
      subst hs
      simp only [step, hi]
      refine Ok.bind (copy_ok g) fun x ⟨h1, h2, _, h4⟩ => ?_
      exact (Ok_ok _ _).2 ⟨h.add h1 h2 hlen h4, rfl⟩
    · simp at hs
  | push i a =>
    simp only [sstep] at hs
    split at hs
    · rename_i l hl
      obtain ⟨s, hi, hlen, g⟩ := h.live hl
      simp only [Option.some.injEq] at hs
      subst hs
      simp only [step, hi]
      refine Ok.bind (push_ok g hP hlen a) fun x ⟨h1, _, h3⟩ => ?_
      refine (Ok_ok _ _).2 ⟨h.update (l := l) hi _ _ _ ?_ (by simp) fun u m hne g' => (h3 u m hne g').1, rfl⟩
      intro t ht
      simp only [Option.some.injEq] at ht
      subst ht
      exact ⟨_, rfl, by simp; omega, h1, fun u m hne g' => (h3 u m hne g').2⟩
    · simp at hs
  | pop i =>
    simp only [sstep] at hs
    split at hs
    · rename_i l hl
      obtain ⟨s, hi, hlen, g⟩ := h.live hl
      simp only [Option.some.injEq] at hs
      subst hs
      simp only [step, hi]
      refine Ok.bind (pop_ok g hP) fun x ⟨h1, h2, h3⟩ => ?_
      refine (Ok_ok _ _).2 ⟨h.update (l := l) hi _ _ _ ?_ (by simp) fun u m hne g' => g'.mono (by omega), by rw [h3]⟩
      intro t ht
      simp only [Option.some.injEq] at ht
      subst ht
      exact ⟨_, rfl, by simp; omega, h1.mono (by omega), fun u m hne g' => by rw [h2]; exact hne⟩
    · simp at hs
  | destroy i =>
    simp only [sstep] at hs
    split at hs
    · rename_i l hl
      obtain ⟨s, hi, hlen, g⟩ := h.live hl
      simp only [Option.some.injEq] at hs
      subst hs
      simp only [step, hi]
      refine Ok.bind (dtor_ok g) fun x h1 => ?_
      exact (Ok_ok _ _).2 ⟨h.update (l := l) hi _ _ _ (by simp) (by simp)
        fun u m hne g' => (h1 u m hne g').mono (by omega), rfl⟩
    · simp at hs

theorem run_ok : ∀ (ops : List (Op α)) {w : World α} {S : List (Option (List α))} {P : Nat}, Inv w S P →
    P + ops.length + 10 ≤ 2147483647 → ∀ {r : List (Option (List α)) × List (Option α)}, srun ops S = some r →
    (run z ops w).Ok fun x => Inv x.1 r.1 (P + ops.length) ∧ x.2 = r.2 := by
  intro ops
  induction ops with
  | nil =>
    intro w S P h hP r hr
    simp only [srun, Option.some.injEq] at hr
    subst hr
    exact (Ok_ok _ _).2 ⟨h, rfl⟩
  | cons o ops ih =>
    intro w S P h hP r hr
    rw [List.length_cons] at hP
    simp only [srun, Option.bind_eq_some_iff, Option.map_eq_some_iff] at hr
    obtain ⟨r1, h1, r2, h2, rfl⟩ := hr
    refine Ok.bind (step_ok h (by omega) h1) fun x ⟨i1, i2⟩ => ?_
    refine Ok.bind (ih i1 (by omega) h2) fun y ⟨j1, j2⟩ => ?_
    refine (Ok_ok _ _).2 ⟨?_, by rw [i2, j2]⟩
    rw [List.length_cons, Nat.add_comm ops.length 1, ← Nat.add_assoc]
    exact j1

theorem inv_empty : Inv (α := α) ⟨[], []⟩ [] 0 := ⟨rfl, by simp, by simp, by simp⟩

/-- Self-assignment: the contents are gone. -/
theorem self_assign {h : Heap α} {P : Nat} {s : Stk} {l : List α} (g : Good h P s l) :
    (assignBody z h s s true).Ok fun r => Good r.1 P r.2 (List.replicate l.length z) := by
  have hle := g.le
  obtain ⟨a, h1, h2, h3⟩ := g.block
  rw [assignBody, delete, h1]
  simp only [if_true]
  rw [ok_bind, new_ok _ (by omega), ok_bind]
  set h' := h.set s.elements none with hh'
  have hd : (h' ++ [some (List.replicate s.num_allocated.toNat z)])[h'.length]?
      = some (some (List.replicate s.num_allocated.toNat z)) := by
    rw [List.getElem?_append_right le_rfl]; simp
  have hloop : (copyLoop (h' ++ [some (List.replicate s.num_allocated.toNat z)]) h'.length h'.length s.freeidx) =
      ok (h' ++ [some (List.replicate s.num_allocated.toNat z)]) := by
    rw [copyLoop, ← Ok_eq_iff, g.free, Int.toNat_natCast]
    refine forUp_ok (fun _ g => g = h' ++ [some (List.replicate s.num_allocated.toNat z)]) (Nat.zero_le _) rfl ?_
    rintro i g - hi rfl
    rw [get, hd]
    simp only [Int.toNat_natCast]
    rw [if_neg (by omega), rd_ok (by simp; omega), ok_bind, put_ok hd (by simp; omega), Ok_ok]
    simp
  rw [hloop, ok_bind, Ok_ok]
  refine ⟨by simp [g.free], by simpa using hle, g.bound, _, hd, by simp; omega, ?_⟩
  simp; omega

end Stack
end Spffl
