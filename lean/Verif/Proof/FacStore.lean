/-
Proofs about the storage of factor lists.
-/
import Verif.Model.FacStore
import Verif.Proof.Stack
import Mathlib.Data.List.Basic
import Mathlib.Data.List.Induction
import Mathlib.Data.List.Perm.Subperm
import Mathlib.Order.Defs.LinearOrder

namespace Spffl
open Res
namespace FacStore
open Stack (Heap new delete get put copyLoop)

variable {α K : Type} {O : EltOps α} {z : Entry α}

/-! ### Blocks -/

theorem get_at {β : Type} {h : Heap β} {p : Nat} {l r : List β} {x : β} (e : h[p]? = some (some (l ++ x :: r))) :
    get h p (l.length : Int) = ok x := by
  rw [Stack.get, e]
  simp only
  rw [if_neg (by omega), Int.toNat_natCast, rd_ok (by simp)]
  simp

theorem put_at {β : Type} {h : Heap β} {p : Nat} {l r : List β} {x : β} (e : h[p]? = some (some (l ++ x :: r))) (y : β) :
    put h p (l.length : Int) y = ok (h.set p (some (l ++ y :: r))) := by
  rw [Stack.put, e]
  simp only
  rw [if_neg (by omega), Int.toNat_natCast, wr_ok (by simp)]
  simp

theorem shift_ok {p : Nat} {l : List (Entry α)} : ∀ (m r : List (Entry α)) (x : Entry α) (h : Heap (Entry α)),
    h[p]? = some (some (l ++ (m ++ x :: r))) →
    ∃ y, shift h p (l.length + m.length) l.length = ok (h.set p (some (l ++ y :: (m ++ r)))) := by
  intro m
  induction m using List.reverseRecOn with
  | nil =>
    intro r x h e
    refine ⟨x, ?_⟩
    simp only [shift, forDown, List.length_nil, Nat.add_zero, Nat.sub_self, loopDown, List.nil_append] at e ⊢
    obtain ⟨hl, e⟩ := List.getElem?_eq_some_iff.1 e
    rw [← e, List.set_getElem_self]
  | append_singleton m y ih =>
    intro r x h e
    have hl : p < h.length := (List.getElem?_eq_some_iff.1 e).1
    have e1 : h[p]? = some (some ((l ++ m) ++ y :: x :: r)) := by rw [e]; simp
    have e2 : h[p]? = some (some ((l ++ m ++ [y]) ++ x :: r)) := by rw [e]; simp
    have g : (h.set p (some ((l ++ m ++ [y]) ++ y :: r)))[p]? = some (some (l ++ (m ++ y :: (y :: r)))) := by
      rw [List.getElem?_set_self hl]; simp
    obtain ⟨w, hw⟩ := ih (y :: r) y _ g
    refine ⟨w, ?_⟩
    have hlen : (l.length + (m ++ [y]).length + 1) - (l.length + 1) = m.length + 1 := by simp
    have hlen' : (l.length + m.length + 1) - (l.length + 1) = m.length := by omega
    rw [shift, forDown, hlen, loopDown, show l.length + 1 + m.length - 1 = (l ++ m).length by simp,
      get_at e1, ok_bind, show l.length + 1 + m.length = (l ++ m ++ [y]).length by simp; omega, put_at e2, ok_bind]
    rw [shift, forDown, hlen'] at hw
    rw [hw, List.set_set]
    simp

/-- The object `o` holds the list `l`, and has room for up to twenty more factors. -/
def Good (h : Heap (Entry α)) (o : Obj α) (l : List (Entry α)) : Prop :=
  o.num_distinct = l.length ∧ ∃ r : List (Entry α), h[o.elements]? = some (some (l ++ r)) ∧
    o.num_allocated = l.length + r.length ∧ r.length ≤ 20

/-- Nothing but the block `p` has changed, and the block of the object is the same or new. -/
structure Frame (h g : Heap (Entry α)) (p p' : Nat) : Prop where
  same : ∀ q, q ≠ p → q < h.length → g[q]? = h[q]?
  fresh : p' = p ∨ h.length ≤ p'
  len : h.length ≤ g.length

theorem Good.lt {h : Heap (Entry α)} {o : Obj α} {l : List (Entry α)} (g : Good h o l) : o.elements < h.length := by
  obtain ⟨-, r, e, -⟩ := g
  exact (List.getElem?_eq_some_iff.1 e).1

theorem Good.frame {h g : Heap (Entry α)} {o : Obj α} {l : List (Entry α)} (H : Good h o l) {p p' : Nat}
    (F : Frame h g p p') (hne : o.elements ≠ p) : Good g o l := by
  have := H.lt
  obtain ⟨h1, r, e, h2⟩ := H
  exact ⟨h1, r, by rw [F.same _ hne this, e], h2⟩

theorem Frame.set {h : Heap (Entry α)} {p : Nat} {b : Option (List (Entry α))} : Frame h (h.set p b) p p :=
  ⟨fun q hq _ => List.getElem?_set_ne (Ne.symm hq), Or.inl rfl, by simp⟩

theorem Frame.trans {h g k : Heap (Entry α)} {p p' p'' : Nat} (F : Frame h g p p') (G : Frame g k p' p'') :
    Frame h k p p'' := by
  refine ⟨fun q hq hl => ?_, ?_, F.len.trans G.len⟩
  · rw [G.same q ?_ (lt_of_lt_of_le hl F.len), F.same q hq hl]
    rcases F.fresh with rfl | h1
    · exact hq
    · omega
  · rcases G.fresh with rfl | h1
    · exact F.fresh
    · exact Or.inr (F.len.trans h1)

theorem ctor_ok (h : Heap (Entry α)) : (ctor z h).Ok fun r =>
    Good r.1 r.2 [] ∧ r.2.elements = h.length ∧ r.2.unit = none ∧ ∀ p, Frame h r.1 p r.2.elements := by
  rw [ctor, Stack.new_ok _ (by omega), ok_bind, Ok_ok]
  refine ⟨⟨rfl, List.replicate 20 z, ?_, rfl, by simp⟩, rfl, rfl, fun p => ⟨fun q _ hq => ?_, Or.inr le_rfl, by simp⟩⟩
  · simp
  · rw [List.getElem?_append_left hq]

theorem copyOut {h : Heap (Entry α)} {p : Nat} {l r : List (Entry α)} (e : h[p]? = some (some (l ++ r))) (k : Nat) :
    copyLoop (h ++ [some (List.replicate (l.length + k) z)]) p h.length l.length =
      ok (h ++ [some (l ++ List.replicate k z)]) := by
  have hlt : p < h.length := (List.getElem?_eq_some_iff.1 e).1
  rw [Stack.copyLoop_ok (a := l ++ r) (b := List.replicate (l.length + k) z) _ _ (by omega) (by simp) (by simp)]
  · simp
  · rw [List.getElem?_append_left hlt, e]
  · simp

theorem copy_ok {h : Heap (Entry α)} {o : Obj α} {l : List (Entry α)} (g : Good h o l) : (copy z h o).Ok fun r =>
    Good r.1 r.2 l ∧ r.2.elements = h.length ∧ r.2.unit = o.unit ∧ ∀ p, Frame h r.1 p r.2.elements := by
  obtain ⟨h1, r, e, -, -⟩ := g
  have := copyOut (z := z) e 0
  rw [copy, h1, Stack.new_ok _ (by omega), ok_bind, Int.toNat_natCast]
  simp only [Nat.add_zero] at this
  rw [this, ok_bind, Ok_ok]
  refine ⟨⟨rfl, [], ?_, by simp, by simp⟩, rfl, rfl, fun p => ⟨fun q _ hq => ?_, Or.inr le_rfl, by simp⟩⟩
  · simp
  · rw [List.getElem?_append_left hq]

theorem dtor_ok {h : Heap (Entry α)} {o : Obj α} {l : List (Entry α)} (g : Good h o l) :
    dtor h o = ok (h.set o.elements none) := by
  obtain ⟨-, r, e, -⟩ := g
  rw [dtor, Stack.delete, e]

theorem grow_ok {h : Heap (Entry α)} {o : Obj α} {l : List (Entry α)} (g : Good h o l) (hl : l.length + 20 ≤ 2147483647) :
    ∃ h' o' x r, grow z h o = ok (h', o') ∧ h'[o'.elements]? = some (some (l ++ x :: r)) ∧ o'.num_distinct = l.length ∧
      o'.num_allocated = l.length + 1 + r.length ∧ r.length < 20 ∧ o'.unit = o.unit ∧
      Frame h h' o.elements o'.elements ∧ (o.num_allocated = l.length → o'.elements = h.length) := by
  obtain ⟨h1, r, e, h2, h3⟩ := g
  rw [grow, h1, h2]
  cases r with
  | nil =>
    rw [if_pos (by simp)]
    have hi : iadd ((l.length : Int) + ([] : List (Entry α)).length) 20 = ok ((l.length + 20 : Nat) : Int) := by
      rw [iadd, chk, if_pos (by unfold InInt; simp; omega)]; simp
    rw [hi, ok_bind, Stack.new_ok _ (by omega), ok_bind, Int.toNat_natCast, copyOut e 20, ok_bind]
    refine ⟨_, _, z, List.replicate 19 z, rfl, ?_, rfl, ?_, by simp, rfl,
      ⟨fun q _ hq => by rw [List.getElem?_append_left hq], Or.inr le_rfl, by simp⟩, fun _ => rfl⟩
    · simp [List.replicate_succ]
    · simp; omega
  | cons x r =>
    rw [if_neg (by simp only [List.length_cons]; omega)]
    refine ⟨_, _, x, r, rfl, e, h1, ?_, by simp at h3; omega, rfl, ⟨fun q _ _ => rfl, Or.inl rfl, le_rfl⟩,
      fun e => by rw [List.length_cons] at e; omega⟩
    rw [h2, List.length_cons]; push_cast; omega

/-! ### Searching -/

/-- Comparisons as the library's element types have them: those of a linear order, on the values in use. -/
structure Lawful [LinearOrder K] (O : EltOps α) (V : α → Prop) (key : α → K) : Prop where
  eq : ∀ {x y}, V x → V y → O.eq x y = ok (decide (key x = key y))
  lt : ∀ {x y}, V x → V y → O.lt x y = ok (decide (key x < key y))
  inj : ∀ {x y}, V x → V y → key x = key y → x = y

variable [LinearOrder K] {V : α → Prop} {key : α → K}

/-- Strictly ascending factors. -/
def Asc (key : α → K) (l : List (Entry α)) : Prop := l.Pairwise fun p q => key p.1 < key q.1

/-- Where a factor is, or where it belongs. -/
theorem split_at (x : α) : ∀ l : List (Entry α), Asc key l →
    ∃ a b, l = a ++ b ∧ (∀ p ∈ a, key p.1 < key x) ∧
      ((∃ y c, b = y :: c ∧ key x = key y.1 ∧ ∀ p ∈ c, key x < key p.1) ∨ ∀ p ∈ b, key x < key p.1)
  | [], _ => ⟨[], [], rfl, by simp, Or.inr (by simp)⟩
  | y :: l, h => by
    have h1 : ∀ q ∈ l, key y.1 < key q.1 := (List.pairwise_cons.1 h).1
    rcases lt_trichotomy (key x) (key y.1) with hlt | heq | hgt
    · refine ⟨[], y :: l, rfl, by simp, Or.inr ?_⟩
      intro p hp
      rcases List.mem_cons.1 hp with rfl | hp
      · exact hlt
      · exact hlt.trans (h1 p hp)
    · exact ⟨[], y :: l, rfl, by simp, Or.inl ⟨y, l, rfl, heq, fun p hp => heq ▸ h1 p hp⟩⟩
    · obtain ⟨a, b, rfl, h2, h3⟩ := split_at x l (List.pairwise_cons.1 h).2
      refine ⟨y :: a, b, rfl, ?_, h3⟩
      intro p hp
      rcases List.mem_cons.1 hp with rfl | hp
      · exact hgt
      · exact h2 p hp

theorem find_ok (L : Lawful O V key) {h : Heap (Entry α)} {p : Nat} {e : Ref α} {x : α} (he : e.load h = ok x) (hx : V x) :
    ∀ (a b d r : List (Entry α)), h[p]? = some (some (d ++ a ++ b ++ r)) → (∀ q ∈ a, key q.1 < key x) →
      (∀ q ∈ a, V q.1) → (∀ q ∈ b, V q.1) →
      ((∃ y c, b = y :: c ∧ key x = key y.1) → findLoop O h p e (a.length + b.length) d.length = ok (true, d.length + a.length)) ∧
      ((∀ q ∈ b, key x < key q.1) → findLoop O h p e (a.length + b.length) d.length = ok (false, d.length + a.length)) := by
  intro a
  induction a with
  | nil =>
    intro b d r e1 _ _ hb
    cases b with
    | nil =>
      refine ⟨?_, fun _ => by simp [findLoop]⟩
      rintro ⟨y, c, h1, -⟩
      cases h1
    | cons y c =>
      have hy := hb y (by simp)
      have e2 : h[p]? = some (some (d ++ y :: (c ++ r))) := by rw [e1]; simp
      constructor
      · rintro ⟨y', c', h1, h2⟩
        cases h1
        simp only [List.length_nil, List.length_cons, Nat.zero_add, findLoop]
        rw [he, ok_bind, get_at e2, ok_bind, L.eq hx hy, ok_bind]
        simp [h2]
      · intro h1
        have := h1 y (by simp)
        simp only [List.length_nil, List.length_cons, Nat.zero_add, findLoop]
        rw [he, ok_bind, get_at e2, ok_bind, L.eq hx hy, ok_bind, L.lt hx hy, ok_bind]
        simp [this, this.ne]
  | cons y a ih =>
    intro b d r e1 ha hv hb
    have hy := hv y (by simp)
    have hlt := ha y (by simp)
    have e2 : h[p]? = some (some (d ++ y :: (a ++ b ++ r))) := by rw [e1]; simp
    obtain ⟨i1, i2⟩ := ih b (d ++ [y]) r (by rw [e1]; simp) (fun q hq => ha q (by simp [hq])) (fun q hq => hv q (by simp [hq])) hb
    have hn : (y :: a).length + b.length = a.length + b.length + 1 := by simp; omega
    have hd : (d ++ [y]).length = d.length + 1 := by simp
    have hs : findLoop O h p e ((y :: a).length + b.length) d.length = findLoop O h p e (a.length + b.length) (d.length + 1) := by
      rw [hn, findLoop, he, ok_bind, get_at e2, ok_bind, L.eq hx hy, ok_bind, L.lt hx hy, ok_bind]
      simp [hlt.ne', not_lt.2 hlt.le]
    rw [hd] at i1 i2
    rw [hs, show d.length + (y :: a).length = d.length + 1 + a.length by simp; omega]
    exact ⟨i1, i2⟩

/-- A factor that is there: its count goes up, nothing else changes. -/
theorem insert_found (L : Lawful O V key) {h : Heap (Entry α)} {o : Obj α} {a c : List (Entry α)} {y : Entry α} {e : Ref α} {k : Int}
    (g : Good h o (a ++ y :: c)) (he : e.load h = ok y.1) (ha : ∀ p ∈ a, key p.1 < key y.1)
    (hv : ∀ p ∈ a ++ y :: c, V p.1) (hk : InInt (y.2 + k)) :
    ∃ h', insert O z h o e k = ok (h', o) ∧ Good h' o (a ++ (y.1, y.2 + k) :: c) ∧ Frame h h' o.elements o.elements := by
  obtain ⟨h1, r, e1, h2, h3⟩ := g
  have hlt : o.elements < h.length := (List.getElem?_eq_some_iff.1 e1).1
  have hf := (find_ok L he (hv y (by simp)) a (y :: c) [] r (by rw [e1]; simp) ha
    (fun q hq => hv q (by simp [hq])) (fun q hq => hv q (by rw [List.mem_append]; exact Or.inr hq))).1 ⟨y, c, rfl, rfl⟩
  have e2 : h[o.elements]? = some (some (a ++ y :: (c ++ r))) := by rw [e1]; simp
  have hi : iadd y.2 k = ok (y.2 + k) := by rw [iadd, chk, if_pos hk]
  simp only [List.length_nil, Nat.zero_add] at hf
  refine ⟨h.set o.elements (some (a ++ (y.1, y.2 + k) :: (c ++ r))), ?_, ⟨?_, r, ?_, ?_, h3⟩, Frame.set⟩
  · rw [insert, h1, Int.toNat_natCast, List.length_append, hf, ok_bind]
    simp only [if_true]
    rw [get_at e2, ok_bind, hi, ok_bind, put_at e2, ok_bind]
  · rw [h1]; simp
  · rw [List.getElem?_set_self hlt]; simp
  · rw [h2]; simp

/-- A new factor goes to its place. -/
theorem insert_new (L : Lawful O V key) {h : Heap (Entry α)} {o : Obj α} {a b : List (Entry α)} {x : α} {e : Ref α} {k : Int}
    (g : Good h o (a ++ b)) (he : ∀ h' p', Frame h h' o.elements p' → e.load h' = ok x) (ha : ∀ p ∈ a, key p.1 < key x)
    (hb : ∀ p ∈ b, key x < key p.1) (hx : V x) (hv : ∀ p ∈ a ++ b, V p.1) (hl : (a ++ b).length + 20 ≤ 2147483647) :
    ∃ h' o', insert O z h o e k = ok (h', o') ∧ Good h' o' (a ++ (x, k) :: b) ∧ o'.unit = o.unit ∧
      Frame h h' o.elements o'.elements ∧ (o.num_allocated = (a ++ b).length → o'.elements = h.length) := by
  have g' := g
  obtain ⟨h1, r, e1, h2, h3⟩ := g
  have he0 := he h o.elements ⟨fun _ _ _ => rfl, Or.inl rfl, le_rfl⟩
  have hf := (find_ok L he0 hx a b [] r (by rw [e1]; simp) ha
    (fun q hq => hv q (by simp [hq])) (fun q hq => hv q (by simp [hq]))).2 hb
  simp only [List.length_nil, Nat.zero_add] at hf
  obtain ⟨hg, og, y, s, j1, j2, j3, j4, j5, j6, j7, j8⟩ := grow_ok (z := z) g' hl
  obtain ⟨w, hw⟩ := shift_ok (p := og.elements) (l := a) b s y hg (by rw [j2]; simp)
  have F2 : Frame h (hg.set og.elements (some (a ++ w :: (b ++ s)))) o.elements og.elements := j7.trans Frame.set
  have hlt : og.elements < hg.length := (List.getElem?_eq_some_iff.1 j2).1
  have e3 : (hg.set og.elements (some (a ++ w :: (b ++ s))))[og.elements]? = some (some (a ++ w :: (b ++ s))) := by
    rw [List.getElem?_set_self hlt]
  have hi : iadd ((a ++ b).length : Int) 1 = ok (((a ++ b).length + 1 : Nat) : Int) := by
    rw [iadd, chk, if_pos (by unfold InInt; omega)]; simp
  refine ⟨hg.set og.elements (some (a ++ (x, k) :: (b ++ s))), { og with num_distinct := (((a ++ b).length + 1 : Nat) : Int) },
    ?_, ⟨?_, s, ?_, ?_, by omega⟩, j6, j7.trans Frame.set, j8⟩
  · rw [insert, h1, Int.toNat_natCast, List.length_append, hf, ok_bind]
    simp only [Bool.false_eq_true, if_false]
    rw [j1, ok_bind]
    simp only
    rw [j3, Int.toNat_natCast, List.length_append, hw, ok_bind, he _ _ F2, ok_bind, put_at e3, ok_bind, List.set_set]
    rw [← List.length_append, hi, ok_bind]
  · simp; omega
  · simp only
    rw [List.getElem?_set_self hlt]; simp
  · simp only
    rw [j4]; simp; omega

end FacStore
end Spffl
