/-
Programs with factor lists: what every one of them holds.
-/
import Verif.Proof.FacStore

namespace Spffl
open Res
namespace FacStore
open Stack (Heap new delete get put copyLoop)

variable {α K : Type} {O : EltOps α} {z : Entry α}

/-! ### Specification: a factor list says for each factor how often it occurs -/

/-- `cnt a = none`: `a` is not listed. -/
structure Spec (α : Type) where
  cnt : α → Option Int
  unit : Option α

open Classical in
/-- `k` more of `e`. -/
noncomputable def addCnt (f : α → Option Int) (e : α) (k : Int) : α → Option Int :=
  fun a => if a = e then some ((f e).getD 0 + k) else f a

/-- Both together. -/
def sumCnt (f g : α → Option Int) (a : α) : Option Int :=
  match f a, g a with
  | some c, some d => some (c + d)
  | some c, none => some c
  | none, r => r

/-- The product of two units, either of which may be missing. -/
inductive UnitMul (O : EltOps α) : Option α → Option α → Option α → Prop where
  | right (u : Option α) : UnitMul O u none u
  | left (v : α) : UnitMul O none (some v) (some v)
  | both {u v w : α} : O.mul u v = ok w → UnitMul O (some u) (some v) (some w)

/-- One operation on a list of factor lists.  `V`: the values that may be inserted.  Counts must stay in the range of int. -/
inductive SStep (O : EltOps α) (V : α → Prop) (S : List (Option (Spec α))) : Op α → List (Option (Spec α)) → Prop where
  | create : SStep O V S .create (S ++ [some ⟨fun _ => none, none⟩])
  | copy {i F} : S[i]? = some (some F) → SStep O V S (.copy i) (S ++ [some F])
  | insert {i F e k} : S[i]? = some (some F) → V e → InInt ((F.cnt e).getD 0 + k) →
      SStep O V S (.insert i e k) (S.set i (some ⟨addCnt F.cnt e k, F.unit⟩))
  | unit {i F e u} : S[i]? = some (some F) → UnitMul O F.unit (some e) u →
      SStep O V S (.unit i e) (S.set i (some ⟨F.cnt, u⟩))
  | exp {i F p u} : S[i]? = some (some F) → FacInfo.exp_unit O F.unit p = ok u →
      (∀ a c, F.cnt a = some c → InInt (c * p)) →
      SStep O V S (.exp i p) (S.set i (some ⟨fun a => (F.cnt a).map (· * p), u⟩))
  | merge {i j F G u} : S[i]? = some (some F) → S[j]? = some (some G) →
      (∀ a c d, F.cnt a = some c → G.cnt a = some d → InInt (c + d)) → UnitMul O F.unit G.unit u →
      SStep O V S (.merge i j) (S.set i (some ⟨sumCnt F.cnt G.cnt, u⟩))
  | destroy {i F} : S[i]? = some (some F) → SStep O V S (.destroy i) (S.set i none)

inductive SRun (O : EltOps α) (V : α → Prop) : List (Op α) → List (Option (Spec α)) → List (Option (Spec α)) → Prop where
  | nil (S : List (Option (Spec α))) : SRun O V [] S S
  | cons {o ops S S' S''} : SStep O V S o S' → SRun O V ops S' S'' → SRun O V (o :: ops) S S''

/-! ### Lists and counts -/

/-- The list has exactly the factors and counts of `f`. -/
def Den (l : List (Entry α)) (f : α → Option Int) : Prop := ∀ a c, f a = some c ↔ (a, c) ∈ l

variable [LinearOrder K] {V : α → Prop} {key : α → K}

theorem Asc.inj {l : List (Entry α)} (h : Asc key l) {p q : Entry α} (hp : p ∈ l) (hq : q ∈ l) (e : p.1 = q.1) : p = q := by
  induction l with
  | nil => simp at hp
  | cons x l ih =>
    obtain ⟨h1, h2⟩ := List.pairwise_cons.1 h
    rcases List.mem_cons.1 hp with hp' | hp' <;> rcases List.mem_cons.1 hq with hq' | hq'
    · rw [hp', hq']
    · exact absurd (h1 q hq') (by rw [← hp', e]; exact lt_irrefl _)
    · exact absurd (h1 p hp') (by rw [← hq', e]; exact lt_irrefl _)
    · exact ih h2 hp' hq'

theorem Den.none {l : List (Entry α)} {f : α → Option Int} (h : Den l f) {a : α} (ha : ∀ p ∈ l, p.1 ≠ a) : f a = none := by
  cases e : f a with
  | none => rfl
  | some c => exact absurd rfl (ha _ ((h a c).1 e))

theorem Asc.length_le {l : List (Entry α)} (h : Asc key l) {E : List α} (hE : ∀ p ∈ l, p.1 ∈ E) : l.length ≤ E.length := by
  have hn : (l.map Prod.fst).Nodup := by
    rw [List.Nodup, List.pairwise_map]
    exact h.imp fun hlt e => by rw [e] at hlt; exact lt_irrefl _ hlt
  have hs : l.map Prod.fst ⊆ E := by
    intro a ha
    obtain ⟨p, hp, rfl⟩ := List.mem_map.1 ha
    exact hE p hp
  simpa using (List.subperm_of_subset hn hs).length_le

/-- What an object holds; `E` are the values ever inserted anywhere. -/
structure Lst (V : α → Prop) (key : α → K) (E : List α) (l : List (Entry α)) (f : α → Option Int) : Prop where
  asc : Asc key l
  val : ∀ p ∈ l, V p.1
  sub : ∀ p ∈ l, p.1 ∈ E
  den : Den l f
  rng : ∀ p ∈ l, InInt p.2

theorem den_put {a c : List (Entry α)} {x : α} {n : Int} {f : α → Option Int} (g : α → Option Int)
    (h1 : ∀ p ∈ a ++ c, p.1 ≠ x) (h2 : ∀ b d, b ≠ x → (f b = some d ↔ (b, d) ∈ a ++ c)) (hx : g x = some n)
    (hg : ∀ b, b ≠ x → g b = f b) : Den (a ++ (x, n) :: c) g := by
  intro b d
  by_cases hb : b = x
  · subst hb
    rw [hx]
    constructor
    · rintro h; cases h; simp
    · intro h
      have : (b, d) = (b, n) ∨ (b, d) ∈ a ++ c := by simp at h ⊢; tauto
      rcases this with h | h
      · cases h; rfl
      · exact absurd rfl (h1 _ h)
  · rw [hg b hb, h2 b d hb]
    simp [hb]

/-- Inserting does what it should. -/
theorem insert_ok (L : Lawful O V key) {h : Heap (Entry α)} {o : Obj α} {E : List α} {l : List (Entry α)} {f : α → Option Int}
    {x : α} {e : Ref α} {k : Int} (g : Good h o l) (H : Lst V key E l f)
    (he : ∀ h' p', Frame h h' o.elements p' → e.load h' = ok x) (hx : V x) (hxE : x ∈ E)
    (hk : InInt ((f x).getD 0 + k)) (hE : E.length + 20 ≤ 2147483647) :
    ∃ h' o' l', insert O z h o e k = ok (h', o') ∧ Good h' o' l' ∧ Lst V key E l' (addCnt f x k) ∧ o'.unit = o.unit ∧
      Frame h h' o.elements o'.elements := by
  obtain ⟨a, b, rfl, ha, hb⟩ := split_at (key := key) x l H.asc
  have hasc := List.pairwise_append.1 H.asc
  rcases hb with ⟨y, c, rfl, hy, hc⟩ | hb
  · have hyV := H.val y (by simp)
    obtain rfl := L.inj hx hyV hy
    have hf : f y.1 = some y.2 := (H.den _ _).2 (by simp)
    obtain ⟨h', i1, i2, i3⟩ := insert_found (z := z) L (k := k) g (he h o.elements ⟨fun _ _ _ => rfl, Or.inl rfl, le_rfl⟩) ha H.val
      (by rw [hf] at hk; exact hk)
    refine ⟨h', o, _, i1, i2, ⟨?_, ?_, ?_, ?_, ?_⟩, rfl, i3⟩
    · have hc' := List.pairwise_cons.1 hasc.2.1
      refine List.pairwise_append.2 ⟨hasc.1, List.pairwise_cons.2 ⟨hc'.1, hc'.2⟩, ?_⟩
      intro p hp q hq
      rcases List.mem_cons.1 hq with rfl | hq
      · exact ha p hp
      · exact hasc.2.2 p hp q (by simp [hq])
    · intro p hp
      simp only [List.mem_append, List.mem_cons] at hp
      rcases hp with hp | rfl | hp
      · exact H.val p (by simp [hp])
      · exact hyV
      · exact H.val p (by simp [hp])
    · intro p hp
      simp only [List.mem_append, List.mem_cons] at hp
      rcases hp with hp | rfl | hp
      · exact H.sub p (by simp [hp])
      · exact hxE
      · exact H.sub p (by simp [hp])
    · refine den_put (f := f) _ ?_ ?_ ?_ ?_
      · intro p hp e
        rcases List.mem_append.1 hp with hp | hp
        · exact absurd (ha p hp) (by rw [e]; exact lt_irrefl _)
        · exact absurd (hc p hp) (by rw [e]; exact lt_irrefl _)
      · intro b d hb
        rw [H.den]
        have : (b, d) ≠ y := fun e => hb (by rw [← e])
        simp [this]
      · simp [addCnt, hf]
      · intro b hb; simp [addCnt, hb]
    · intro p hp
      simp only [List.mem_append, List.mem_cons] at hp
      rcases hp with hp | rfl | hp
      · exact H.rng p (by simp [hp])
      · rw [hf] at hk; exact hk
      · exact H.rng p (by simp [hp])
  · have hne : ∀ p ∈ a ++ b, p.1 ≠ x := by
      intro p hp e
      rcases List.mem_append.1 hp with hp | hp
      · exact absurd (ha p hp) (by rw [e]; exact lt_irrefl _)
      · exact absurd (hb p hp) (by rw [e]; exact lt_irrefl _)
    have hf : f x = none := H.den.none hne
    have hlen := H.asc.length_le H.sub
    obtain ⟨h', o', i1, i2, i3, i4, -⟩ := insert_new (z := z) L (k := k) g he ha hb hx H.val (by omega)
    refine ⟨h', o', _, i1, i2, ⟨?_, ?_, ?_, ?_, ?_⟩, i3, i4⟩
    · refine List.pairwise_append.2 ⟨hasc.1, List.pairwise_cons.2 ⟨hb, hasc.2.1⟩, ?_⟩
      intro p hp q hq
      rcases List.mem_cons.1 hq with rfl | hq
      · exact ha p hp
      · exact hasc.2.2 p hp q hq
    · intro p hp
      simp only [List.mem_append, List.mem_cons] at hp
      rcases hp with hp | rfl | hp
      · exact H.val p (by simp [hp])
      · exact hx
      · exact H.val p (by simp [hp])
    · intro p hp
      simp only [List.mem_append, List.mem_cons] at hp
      rcases hp with hp | rfl | hp
      · exact H.sub p (by simp [hp])
      · exact hxE
      · exact H.sub p (by simp [hp])
    · refine den_put (f := f) _ hne (fun b d _ => H.den b d) ?_ ?_
      · simp [addCnt, hf]
      · intro b hb; simp [addCnt, hb]
    · intro p hp
      simp only [List.mem_append, List.mem_cons] at hp
      rcases hp with hp | rfl | hp
      · exact H.rng p (by simp [hp])
      · rw [hf] at hk; simpa using hk
      · exact H.rng p (by simp [hp])

/-! ### Merging -/

theorem addCnt_ne (f : α → Option Int) {a e : α} (k : Int) (h : a ≠ e) : addCnt f e k a = f a := by simp [addCnt, h]

theorem merge_other (L : Lawful O V key) {E : List α} {t : Obj α} (hE : E.length + 20 ≤ 2147483647) {m : List (Entry α)} :
    ∀ (m2 m1 : List (Entry α)) {k : Nat} {h : Heap (Entry α)} {o : Obj α} {l : List (Entry α)} {f : α → Option Int},
    m = m1 ++ m2 → Good h t m → Good h o l → o.elements ≠ t.elements → Asc key m2 → (∀ p ∈ m, V p.1 ∧ p.1 ∈ E) →
    Lst V key E l f → (∀ p ∈ m2, InInt ((f p.1).getD 0 + p.2)) → m2.length < k →
    ∃ h' o' l', mergeLoop O z (some t) k m1.length h o = ok (h', o') ∧ Good h' o' l' ∧
      Lst V key E l' (m2.foldl (fun f p => addCnt f p.1 p.2) f) ∧ o'.unit = o.unit ∧ Frame h h' o.elements o'.elements := by
  intro m2
  induction m2 with
  | nil =>
    intro m1 k h o l f hm ht ho _ _ _ hl _ hk
    obtain ⟨k, rfl⟩ : ∃ j, k = j + 1 := ⟨k - 1, by simp at hk; omega⟩
    refine ⟨h, o, l, ?_, ho, hl, rfl, ⟨fun _ _ _ => rfl, Or.inl rfl, le_rfl⟩⟩
    rw [mergeLoop]
    simp only [Option.getD_some]
    rw [ht.1, hm, if_neg (by simp)]
  | cons y m2 ih =>
    intro m1 k h o l f hm ht ho hne hasc hv hl hr hk
    obtain ⟨k, rfl⟩ : ∃ j, k = j + 1 := ⟨k - 1, by simp at hk; omega⟩
    have htb := ht
    obtain ⟨t1, r, t2, t3⟩ := ht
    have hy := hv y (by rw [hm]; simp)
    have e1 : h[t.elements]? = some (some (m1 ++ y :: (m2 ++ r))) := by rw [t2, hm]; simp
    have hld : ∀ h' p', Frame h h' o.elements p' → (Ref.slot (α := α) t.elements m1.length).load h' = ok y.1 := by
      intro h' p' F
      rw [Ref.load, get_at (l := m1) (x := y) (r := m2 ++ r) (by rw [F.same _ (Ne.symm hne) htb.lt, e1]), ok_bind]
    obtain ⟨h1, o1, l1, i1, i2, i3, i4, i5⟩ := insert_ok (z := z) L ho hl hld hy.1 hy.2 (hr y (by simp)) hE
    have hne1 : o1.elements ≠ t.elements := by
      rcases i5.fresh with e | e
      · rw [e]; exact hne
      · have := htb.lt; omega
    obtain ⟨h2, o2, l2, j1, j2, j3, j4, j5⟩ := ih (m1 ++ [y]) (k := k) (h := h1) (o := o1) (by rw [hm]; simp) (htb.frame i5 (Ne.symm hne))
      i2 hne1 (List.pairwise_cons.1 hasc).2 hv i3 (fun p hp => by
        rw [addCnt_ne _ _ (fun e => lt_irrefl (key y.1) (by
          have := (List.pairwise_cons.1 hasc).1 p hp
          rwa [e] at this))]
        exact hr p (by simp [hp])) (by simp at hk; omega)
    refine ⟨h2, o2, l2, ?_, j2, j3, j4.trans i4, i5.trans j5⟩
    rw [mergeLoop]
    simp only [Option.getD_some]
    rw [t1, if_pos (by rw [hm]; simp), get_at e1, ok_bind, i1, ok_bind]
    simpa using j1

theorem fold_sum {key : α → K} : ∀ (m : List (Entry α)) (f g : α → Option Int), Asc key m → Den m g →
    m.foldl (fun f p => addCnt f p.1 p.2) f = sumCnt f g := by
  intro m
  induction m with
  | nil =>
    intro f g _ hg
    funext a
    have : g a = none := hg.none (by simp)
    simp only [List.foldl_nil, sumCnt, this]
    cases f a <;> rfl
  | cons y m ih =>
    intro f g hm hg
    obtain ⟨h1, h2⟩ := List.pairwise_cons.1 hm
    have hy : ∀ p ∈ m, p.1 ≠ y.1 := fun p hp e => lt_irrefl (key y.1) (by have := h1 p hp; rwa [e] at this)
    classical
    rw [List.foldl_cons, ih _ (fun a => if a = y.1 then none else g a) h2]
    · funext a
      by_cases ha : a = y.1
      · subst ha
        have : g y.1 = some y.2 := (hg _ _).2 (by simp)
        simp only [sumCnt, if_true, this, addCnt]
        cases f y.1 <;> simp
      · simp only [sumCnt, if_neg ha, addCnt_ne _ _ ha]
    · intro a c
      by_cases ha : a = y.1
      · subst ha
        simp only [if_true]
        constructor
        · intro h; cases h
        · intro h; exact absurd rfl (hy (y.1, c) h)
      · simp only [if_neg ha]
        rw [hg]
        have : (a, c) ≠ y := fun e => ha (by rw [← e])
        simp [this]

/-- Twice the count. -/
def dbl (p : Entry α) : Entry α := (p.1, p.2 + p.2)

theorem merge_self (L : Lawful O V key) {l : List (Entry α)} (hasc : Asc key l) (hv : ∀ p ∈ l, V p.1)
    (hr : ∀ p ∈ l, InInt (p.2 + p.2)) : ∀ (b a : List (Entry α)) {k : Nat} {h : Heap (Entry α)} {o : Obj α},
    l = a ++ b → Good h o (a.map dbl ++ b) → b.length < k →
    ∃ h', mergeLoop O z none k a.length h o = ok (h', o) ∧ Good h' o (l.map dbl) ∧ Frame h h' o.elements o.elements := by
  intro b
  induction b with
  | nil =>
    intro a k h o hl g hk
    obtain ⟨k, rfl⟩ : ∃ j, k = j + 1 := ⟨k - 1, by simp at hk; omega⟩
    refine ⟨h, ?_, by simpa [hl] using g, ⟨fun _ _ _ => rfl, Or.inl rfl, le_rfl⟩⟩
    rw [mergeLoop]
    simp only [Option.getD_none]
    rw [g.1, if_neg (by simp)]
  | cons y b ih =>
    intro a k h o hl g hk
    obtain ⟨k, rfl⟩ : ∃ j, k = j + 1 := ⟨k - 1, by simp at hk; omega⟩
    have hl' := List.pairwise_append.1 (hl ▸ hasc)
    obtain ⟨r, e1, -⟩ := g.2
    have e2 : h[o.elements]? = some (some (a.map dbl ++ y :: (b ++ r))) := by rw [e1]; simp
    have hg := get_at e2
    rw [List.length_map] at hg
    obtain ⟨h1, i1, i2, i3⟩ := insert_found (z := z) L (e := .slot o.elements a.length) (k := y.2) g
      (by rw [Ref.load, hg, ok_bind])
      (by
        intro p hp
        obtain ⟨q, hq, rfl⟩ := List.mem_map.1 hp
        exact hl'.2.2 q hq y (by simp))
      (by
        intro p hp
        rcases List.mem_append.1 hp with hp | hp
        · obtain ⟨q, hq, rfl⟩ := List.mem_map.1 hp
          exact hv q (by rw [hl]; simp [hq])
        · exact hv p (by rw [hl]; exact List.mem_append.2 (Or.inr hp)))
      (hr y (by rw [hl]; simp))
    obtain ⟨h2, j1, j2, j3⟩ := ih (a ++ [y]) (k := k) (h := h1) (o := o) (by rw [hl]; simp)
      (by simpa [dbl] using i2) (by simp at hk; omega)
    refine ⟨h2, ?_, j2, i3.trans j3⟩
    rw [mergeLoop]
    simp only [Option.getD_none]
    rw [g.1, if_pos (by simp), hg, ok_bind, i1, ok_bind]
    simpa using j1

theorem mergeUnit_ok {u v w : Option α} (h : UnitMul O u v w) : mergeUnit O u v = ok w := by
  cases h with
  | right => cases u <;> rfl
  | left => rfl
  | both e => simp [mergeUnit, e]

theorem insertUnit_ok {o : Obj α} {e : α} {w : Option α} (h : UnitMul O o.unit (some e) w) :
    insertUnit O o e = ok { o with unit := w } := by
  rw [insertUnit]
  generalize o.unit = u at h
  cases h with
  | left => rfl
  | both e => simp [e]

theorem expAll_ok {h : Heap (Entry α)} {o : Obj α} {l : List (Entry α)} {p : Int} {u : Option α} (g : Good h o l)
    (hu : FacInfo.exp_unit O o.unit p = ok u) (hr : ∀ q ∈ l, InInt (q.2 * p)) :
    ∃ h', expAll O h o p = ok (h', { o with unit := u }) ∧ Good h' o (l.map fun q => (q.1, q.2 * p)) ∧
      Frame h h' o.elements o.elements := by
  have hlt := g.lt
  obtain ⟨h1, r, e, h2, h3⟩ := g
  have key : (forUp 0 o.num_distinct.toNat h fun i h => do
      let x ← get h o.elements i
      let c ← imul x.2 p
      put h o.elements i (x.1, c)) = ok (h.set o.elements (some ((l.map fun q => (q.1, q.2 * p)) ++ r))) := by
    rw [h1, Int.toNat_natCast, ← Ok_eq_iff]
    have := forUp_ok (body := fun i h => do
      let x ← get h o.elements (i : Int)
      let c ← imul x.2 p
      put h o.elements (i : Int) (x.1, c))
      (fun i g => g = h.set o.elements (some (((l.take i).map fun q => (q.1, q.2 * p)) ++ (l.drop i ++ r)))) (Nat.zero_le l.length) (s := h) ?_ ?_
    · simpa using this
    · obtain ⟨_, e⟩ := List.getElem?_eq_some_iff.1 e
      simp only [List.take_zero, List.map_nil, List.drop_zero, List.nil_append]
      rw [← e, List.set_getElem_self]
    · rintro i g - hi rfl
      have e1 : (h.set o.elements (some (((l.take i).map fun q => (q.1, q.2 * p)) ++ (l.drop i ++ r))))[o.elements]? =
          some (some (((l.take i).map fun q => (q.1, q.2 * p)) ++ l[i] :: (l.drop (i + 1) ++ r))) := by
        rw [List.getElem?_set_self hlt]
        have : l.drop i = l[i] :: l.drop (i + 1) := List.drop_eq_getElem_cons hi
        rw [this, List.cons_append]
      have hlen : ((l.take i).map fun q => (q.1, q.2 * p)).length = i := by simp; omega
      have g1 := get_at e1
      have g2 := put_at e1 (l[i].1, l[i].2 * p)
      rw [hlen] at g1 g2
      rw [g1, ok_bind, imul, chk_ok (hr _ (List.getElem_mem hi)), ok_bind, g2, Ok_ok, List.set_set,
        List.take_succ_eq_append_getElem hi]
      rw [List.map_append, List.append_assoc, List.map_singleton, List.singleton_append]
  refine ⟨_, ?_, ⟨by simpa using h1, r, by rw [List.getElem?_set_self hlt], by simpa using h2, h3⟩, Frame.set⟩
  rw [expAll, hu, ok_bind, key, ok_bind]

/-! ### Whole programs -/

/-- The object holds what the specification says. -/
def Holds (V : α → Prop) (key : α → K) (E : List α) (h : Heap (Entry α)) (o : Obj α) (F : Spec α) : Prop :=
  ∃ l, Good h o l ∧ Lst V key E l F.cnt ∧ o.unit = F.unit

structure Inv (V : α → Prop) (key : α → K) (E : List α) (w : World α) (S : List (Option (Spec α))) : Prop where
  len : w.objs.length = S.length
  good : ∀ (i : Nat) (o : Obj α), w.objs[i]? = some (some o) → ∃ F, S[i]? = some (some F) ∧ Holds V key E w.heap o F
  dead : ∀ i : Nat, w.objs[i]? = some none → S[i]? = some none
  inj : ∀ (i j : Nat) (s t : Obj α), w.objs[i]? = some (some s) → w.objs[j]? = some (some t) → s.elements = t.elements → i = j

variable {E : List α} {w : World α} {S : List (Option (Spec α))}

theorem Inv.live (h : Inv V key E w S) {i : Nat} {F : Spec α} (hi : S[i]? = some (some F)) :
    ∃ o, w.objs[i]? = some (some o) ∧ w.obj i = ok o ∧ Holds V key E w.heap o F := by
  have hlt := (List.getElem?_eq_some_iff.1 hi).1
  rw [← h.len] at hlt
  cases e : w.objs[i] with
  | none =>
    have := h.dead i (by rw [List.getElem?_eq_getElem hlt, e])
    rw [hi] at this; simp at this
  | some o =>
    have hs : w.objs[i]? = some (some o) := by rw [List.getElem?_eq_getElem hlt, e]
    obtain ⟨F', h1, h2⟩ := h.good i o hs
    rw [hi] at h1
    obtain rfl : F = F' := by simpa using h1
    exact ⟨o, hs, by rw [World.obj, hs], h2⟩

theorem Lst.grow {l : List (Entry α)} {f : α → Option Int} (h : Lst V key E l f) (x : α) : Lst V key (x :: E) l f :=
  ⟨h.asc, h.val, fun p hp => List.mem_cons_of_mem _ (h.sub p hp), h.den, h.rng⟩

theorem Inv.grow (h : Inv V key E w S) (x : α) : Inv V key (x :: E) w S :=
  ⟨h.len, fun i o hi => by
    obtain ⟨F, h1, l, h2, h3, h4⟩ := h.good i o hi
    exact ⟨F, h1, l, h2, h3.grow x, h4⟩, h.dead, h.inj⟩

theorem Holds.frame {h g : Heap (Entry α)} {o : Obj α} {F : Spec α} {p p' : Nat} (H : Holds V key E h o F) (f : Frame h g p p')
    (hne : o.elements ≠ p) : Holds V key E g o F := by
  obtain ⟨l, h1, h2⟩ := H
  exact ⟨l, h1.frame f hne, h2⟩

theorem Holds.lt {h : Heap (Entry α)} {o : Obj α} {F : Spec α} (H : Holds V key E h o F) : o.elements < h.length := by
  obtain ⟨l, h1, -⟩ := H
  exact h1.lt

/-- A new object at the end, everything else kept. -/
theorem Inv.add (h : Inv V key E w S) {g : Heap (Entry α)} {o : Obj α} {F : Spec α} (h1 : Holds V key E g o F)
    (h2 : o.elements = w.heap.length) (h3 : ∀ p, Frame w.heap g p o.elements) :
    Inv V key E ⟨g, w.objs ++ [some o]⟩ (S ++ [some F]) := by
  have hk : ∀ (i : Nat) (t : Obj α), (w.objs ++ [some o])[i]? = some (some t) →
      (i < w.objs.length ∧ w.objs[i]? = some (some t)) ∨ (i = w.objs.length ∧ t = o) := by
    intro i t hi
    rw [List.getElem?_append] at hi
    split at hi
    · exact Or.inl ⟨by assumption, hi⟩
    · right
      have := (List.getElem?_eq_some_iff.1 hi).1
      have hi0 : i = w.objs.length := by simp at this; omega
      subst hi0
      simp at hi
      exact ⟨rfl, hi.symm⟩
  constructor
  · simp [h.len]
  · intro i t hi
    rcases hk i t hi with ⟨hlt, hi⟩ | ⟨rfl, rfl⟩
    · obtain ⟨G, e1, e2⟩ := h.good i t hi
      refine ⟨G, by rw [List.getElem?_append_left (by rw [← h.len]; exact hlt), e1], e2.frame (h3 w.heap.length) ?_⟩
      exact e2.lt.ne
    · exact ⟨F, by rw [h.len, List.getElem?_append_right le_rfl]; simp, h1⟩
  · intro i hi
    simp only at hi
    rw [List.getElem?_append] at hi
    split at hi
    · rename_i hlt
      rw [List.getElem?_append_left (by rw [← h.len]; exact hlt), h.dead i hi]
    · have := (List.getElem?_eq_some_iff.1 hi).1
      have hi0 : i = w.objs.length := by simp at this; omega
      subst hi0
      simp at hi
  · intro i j t u hi hj he
    rcases hk i t hi with ⟨hlt, hi2⟩ | ⟨rfl, rfl⟩ <;> rcases hk j u hj with ⟨hlt', hj2⟩ | ⟨rfl, rfl⟩
    · exact h.inj i j t u hi2 hj2 he
    · obtain ⟨G, _, e3⟩ := h.good i t hi2
      have := e3.lt; omega
    · obtain ⟨G, _, e3⟩ := h.good j u hj2
      have := e3.lt; omega
    · rfl

/-- One object replaced. -/
theorem Inv.update (h : Inv V key E w S) {i : Nat} {o : Obj α} (hi : w.objs[i]? = some (some o)) {g : Heap (Entry α)} {o' : Obj α}
    {F : Spec α} (h1 : Holds V key E g o' F) (f : Frame w.heap g o.elements o'.elements) :
    Inv V key E ⟨g, w.objs.set i (some o')⟩ (S.set i (some F)) := by
  have hlt := (List.getElem?_eq_some_iff.1 hi).1
  have hlt' : i < S.length := by rw [← h.len]; exact hlt
  have hk : ∀ (j : Nat) (t : Obj α), (w.objs.set i (some o'))[j]? = some (some t) →
      (j ≠ i ∧ w.objs[j]? = some (some t)) ∨ (j = i ∧ t = o') := by
    intro j t hj
    by_cases e : j = i
    · subst e
      rw [List.getElem?_set_self hlt] at hj
      exact Or.inr ⟨rfl, by simpa using hj.symm⟩
    · rw [List.getElem?_set_ne (Ne.symm e)] at hj
      exact Or.inl ⟨e, hj⟩
  have other : ∀ (j : Nat) (t : Obj α), j ≠ i → w.objs[j]? = some (some t) → t.elements ≠ o.elements :=
    fun j t hne hj he => hne (h.inj j i t o hj hi he)
  have fresh : ∀ (j : Nat) (t : Obj α), j ≠ i → w.objs[j]? = some (some t) → t.elements ≠ o'.elements := by
    intro j t hne hj he
    rcases f.fresh with e | e
    · exact other j t hne hj (he.trans e)
    · obtain ⟨G, _, e3⟩ := h.good j t hj
      have := e3.lt; omega
  constructor
  · simp [h.len]
  · intro j t hj
    rcases hk j t hj with ⟨hne, hj⟩ | ⟨rfl, rfl⟩
    · obtain ⟨G, e1, e2⟩ := h.good j t hj
      exact ⟨G, by rw [List.getElem?_set_ne (Ne.symm hne), e1], e2.frame f (other j t hne hj)⟩
    · exact ⟨F, by rw [List.getElem?_set_self hlt'], h1⟩
  · intro j hj
    simp only at hj
    by_cases e : j = i
    · subst e
      rw [List.getElem?_set_self hlt] at hj
      cases hj
    · rw [List.getElem?_set_ne (Ne.symm e)] at hj ⊢
      exact h.dead j hj
  · intro j k t u hj hk' he
    rcases hk j t hj with ⟨hne, hj2⟩ | ⟨rfl, rfl⟩ <;> rcases hk k u hk' with ⟨hne', hk2⟩ | ⟨rfl, rfl⟩
    · exact h.inj j k t u hj2 hk2 he
    · exact absurd he (fresh j t hne hj2)
    · exact absurd he.symm (fresh k u hne' hk2)
    · rfl

/-- One object gone. -/
theorem Inv.remove (h : Inv V key E w S) {i : Nat} {o : Obj α} (hi : w.objs[i]? = some (some o)) :
    Inv V key E ⟨w.heap.set o.elements none, w.objs.set i none⟩ (S.set i none) := by
  have hlt := (List.getElem?_eq_some_iff.1 hi).1
  have hlt' : i < S.length := by rw [← h.len]; exact hlt
  have hk : ∀ (j : Nat) (t : Obj α), (w.objs.set i none)[j]? = some (some t) → j ≠ i ∧ w.objs[j]? = some (some t) := by
    intro j t hj
    by_cases e : j = i
    · subst e
      rw [List.getElem?_set_self hlt] at hj
      cases hj
    · rw [List.getElem?_set_ne (Ne.symm e)] at hj
      exact ⟨e, hj⟩
  constructor
  · simp [h.len]
  · intro j t hj
    obtain ⟨hne, hj⟩ := hk j t hj
    obtain ⟨G, e1, e2⟩ := h.good j t hj
    exact ⟨G, by rw [List.getElem?_set_ne (Ne.symm hne), e1], e2.frame Frame.set fun he => hne (h.inj j i t o hj hi he)⟩
  · intro j hj
    simp only at hj
    by_cases e : j = i
    · subst e
      rw [List.getElem?_set_self hlt']
    · rw [List.getElem?_set_ne (Ne.symm e)] at hj ⊢
      exact h.dead j hj
  · intro j k t u hj hk' he
    exact h.inj j k t u (hk j t hj).2 (hk k u hk').2 he

theorem merge_ok (L : Lawful O V key) {h : Heap (Entry α)} {o t : Obj α} {F G : Spec α} {self : Bool} {u : Option α}
    (hF : Holds V key E h o F) (hG : Holds V key E h t G) (hs : if self then o = t ∧ F = G else o.elements ≠ t.elements)
    (hr : ∀ a c d, F.cnt a = some c → G.cnt a = some d → InInt (c + d))
    (hu : UnitMul O F.unit G.unit u)
    (hE : E.length + 20 ≤ 2147483647) :
    ∃ h' o', merge O z h o (if self then none else some t) = ok (h', o') ∧ Holds V key E h' o' ⟨sumCnt F.cnt G.cnt, u⟩ ∧
      Frame h h' o.elements o'.elements := by
  obtain ⟨l, g1, g2, g3⟩ := hF
  obtain ⟨m, m1, m2, m3⟩ := hG
  have hlen : l.length < 2 ^ 31 := by have := g2.asc.length_le g2.sub; omega
  have hlen' : m.length < 2 ^ 31 := by have := m2.asc.length_le m2.sub; omega
  cases self with
  | false =>
    simp only [Bool.false_eq_true, if_false] at hs ⊢
    obtain ⟨h', o', l', i1, i2, i3, i4, i5⟩ := merge_other (z := z) L hE m [] (k := 2 ^ 31) (by simp) m1 g1 hs m2.asc
      (fun p hp => ⟨m2.val p hp, m2.sub p hp⟩) g2
      (fun p hp => by
        have hp' := (m2.den _ _).2 hp
        cases e : F.cnt p.1 with
        | none => simpa using m2.rng p hp
        | some c => exact hr _ _ _ e hp') hlen'
    rw [fold_sum (key := key) m F.cnt G.cnt m2.asc m2.den] at i3
    refine ⟨h', { o' with unit := u }, ?_, ⟨l', i2, i3, rfl⟩, i5⟩
    rw [merge]
    simp only [List.length_nil] at i1
    rw [i1, ok_bind]
    simp only [Option.getD_some]
    rw [i4, g3, m3, mergeUnit_ok hu, ok_bind]
  | true =>
    simp only [if_true] at hs ⊢
    obtain ⟨rfl, rfl⟩ := hs
    have hd : ∀ p ∈ l, InInt (p.2 + p.2) := fun p hp => by
      have := (g2.den p.1 p.2).2 hp
      exact hr _ _ _ this this
    obtain ⟨h', i1, i2, i3⟩ := merge_self (z := z) L g2.asc g2.val hd l [] (k := 2 ^ 31) (by simp) (by simpa using g1) hlen
    refine ⟨h', { o with unit := u }, ?_, ⟨l.map dbl, i2, ⟨?_, ?_, ?_, ?_, ?_⟩, rfl⟩, i3⟩
    · rw [merge]
      simp only [List.length_nil] at i1
      rw [i1, ok_bind]
      simp only [Option.getD_none]
      rw [g3, mergeUnit_ok hu, ok_bind]
    · rw [Asc, List.pairwise_map]; exact g2.asc
    · intro p hp
      obtain ⟨q, hq, rfl⟩ := List.mem_map.1 hp
      exact g2.val q hq
    · intro p hp
      obtain ⟨q, hq, rfl⟩ := List.mem_map.1 hp
      exact g2.sub q hq
    · intro a c
      have : sumCnt F.cnt F.cnt a = (F.cnt a).map fun c => c + c := by
        simp only [sumCnt]; cases F.cnt a <;> rfl
      simp only
      rw [this, Option.map_eq_some_iff, List.mem_map]
      constructor
      · rintro ⟨d, e, rfl⟩
        exact ⟨(a, d), (g2.den a d).1 e, rfl⟩
      · rintro ⟨q, hq, e⟩
        simp only [dbl, Prod.mk.injEq] at e
        obtain ⟨rfl, rfl⟩ := e
        exact ⟨q.2, (g2.den _ _).2 hq, rfl⟩
    · intro p hp
      obtain ⟨q, hq, rfl⟩ := List.mem_map.1 hp
      exact hd q hq

theorem step_ok (L : Lawful O V key) (h : Inv V key E w S) {o : Op α} {S' : List (Option (Spec α))} (hs : SStep O V S o S')
    (hE : E.length + 21 ≤ 2147483647) :
    ∃ w' E', step O z w o = ok w' ∧ Inv V key E' w' S' ∧ E'.length ≤ E.length + 1 := by
  cases hs with
  | create =>
    obtain ⟨r, hr, g1, g2, g3, g4⟩ := ctor_ok (z := z) w.heap
    refine ⟨_, E, by rw [step, hr, ok_bind], h.add ⟨[], g1, ⟨?_, ?_, ?_, ?_, ?_⟩, g3⟩ g2 g4, by omega⟩
    · simp [Asc]
    · simp
    · simp
    · intro a c; simp
    · simp
  | copy hi =>
    obtain ⟨o, -, h1, l, h2, h3, h4⟩ := h.live hi
    obtain ⟨r, hr, g1, g2, g3, g4⟩ := copy_ok (z := z) h2
    exact ⟨_, E, by rw [step, h1, ok_bind, hr, ok_bind], h.add ⟨l, g1, h3, g3.trans h4⟩ g2 g4, by omega⟩
  | @insert i F e k hi hv hk =>
    have h' := h.grow e
    obtain ⟨o, h0, h1, l, h2, h3, h4⟩ := h'.live hi
    obtain ⟨g, o', l', i1, i2, i3, i4, i5⟩ := insert_ok (z := z) L (e := .val e) h2 h3 (fun _ _ _ => rfl) hv (by simp) hk (by simp; omega)
    exact ⟨_, e :: E, by rw [step, h1, ok_bind, i1, ok_bind], h'.update h0 ⟨l', i2, i3, i4.trans h4⟩ i5, by simp⟩
  | @unit i F e u hi hu =>
    obtain ⟨o, h0, h1, l, h2, h3, h4⟩ := h.live hi
    refine ⟨⟨w.heap, w.objs.set i (some { o with unit := u })⟩, E,
      by rw [step, h1, ok_bind, insertUnit_ok (by rw [h4]; exact hu), ok_bind],
      h.update (o' := { o with unit := u }) h0 ⟨l, h2, h3, rfl⟩ ?_, by omega⟩
    exact ⟨fun _ _ _ => rfl, Or.inl rfl, le_rfl⟩
  | @exp i F p u hi hu hr =>
    obtain ⟨o, h0, h1, l, h2, h3, h4⟩ := h.live hi
    have hr' : ∀ q ∈ l, InInt (q.2 * p) := fun q hq => hr _ _ ((h3.den _ _).2 hq)
    obtain ⟨g, i1, i2, i3⟩ := expAll_ok h2 (by rw [h4]; exact hu) hr'
    refine ⟨⟨g, w.objs.set i (some { o with unit := u })⟩, E, by rw [step, h1, ok_bind, i1, ok_bind],
      h.update (o' := { o with unit := u }) h0 ⟨_, i2, ⟨?_, ?_, ?_, ?_, ?_⟩, rfl⟩ i3, by omega⟩
    · rw [Asc, List.pairwise_map]; exact h3.asc
    · intro p hp
      obtain ⟨q, hq, rfl⟩ := List.mem_map.1 hp
      exact h3.val q hq
    · intro p hp
      obtain ⟨q, hq, rfl⟩ := List.mem_map.1 hp
      exact h3.sub q hq
    · intro a c
      simp only
      rw [Option.map_eq_some_iff, List.mem_map]
      constructor
      · rintro ⟨d, e, rfl⟩
        exact ⟨(a, d), (h3.den a d).1 e, rfl⟩
      · rintro ⟨q, hq, e⟩
        simp only [Prod.mk.injEq] at e
        obtain ⟨rfl, rfl⟩ := e
        exact ⟨q.2, (h3.den _ _).2 hq, rfl⟩
    · intro p hp
      obtain ⟨q, hq, rfl⟩ := List.mem_map.1 hp
      exact hr' q hq
  | @merge i j F G u hi hj hr hu =>
    obtain ⟨o, h0, h1, H⟩ := h.live hi
    obtain ⟨t, t0, t1, T⟩ := h.live hj
    obtain ⟨g, o', i1, i2, i3⟩ := merge_ok (z := z) L (self := decide (i = j)) H T (by
      by_cases e : i = j
      · subst e
        rw [h0] at t0
        rw [hi] at hj
        simp only [decide_true, if_true]
        exact ⟨by simpa using t0, by simpa using hj⟩
      · simp only [e, decide_false, Bool.false_eq_true, if_false]
        exact fun he => e (h.inj i j o t h0 t0 he)) hr hu (by omega)
    refine ⟨_, E, ?_, h.update h0 i2 i3, by omega⟩
    rw [step, h1, ok_bind, t1, ok_bind]
    simp only [decide_eq_true_eq] at i1
    rw [i1, ok_bind]
  | destroy hi =>
    obtain ⟨o, h0, h1, l, h2, -⟩ := h.live hi
    exact ⟨_, E, by rw [step, h1, ok_bind, dtor_ok h2, ok_bind], h.remove h0, by omega⟩

theorem run_ok_len (L : Lawful O V key) {ops : List (Op α)} {S S' : List (Option (Spec α))} (hr : SRun O V ops S S') :
    ∀ {E : List α} {w : World α}, Inv V key E w S → E.length + ops.length + 20 ≤ 2147483647 →
    ∃ w' E', run O z ops w = ok w' ∧ Inv V key E' w' S' ∧ E'.length ≤ E.length + ops.length := by
  induction hr with
  | nil S => intro E w h _; exact ⟨w, E, rfl, h, by simp⟩
  | cons h1 _ ih =>
    intro E w h hE
    rw [List.length_cons] at hE
    obtain ⟨w1, E1, i1, i2, i3⟩ := step_ok (z := z) L h h1 (by omega)
    obtain ⟨w2, E2, j1, j2, j3⟩ := ih i2 (by omega)
    exact ⟨w2, E2, by rw [run, i1, ok_bind, j1], j2, by rw [List.length_cons]; omega⟩

theorem run_ok (L : Lawful O V key) {ops : List (Op α)} {S S' : List (Option (Spec α))} (hr : SRun O V ops S S')
    {E : List α} {w : World α} (h : Inv V key E w S) (hE : E.length + ops.length + 20 ≤ 2147483647) :
    ∃ w' E', run O z ops w = ok w' ∧ Inv V key E' w' S' := by
  obtain ⟨w', E', h1, h2, -⟩ := run_ok_len (z := z) L hr h hE
  exact ⟨w', E', h1, h2⟩

/-! ### The functions on lists of `Model/FacInfo.lean` -/

omit [LinearOrder K] in
theorem find_eq {h : Heap (Entry α)} {p : Nat} {e : α} : ∀ (l d r : List (Entry α)), h[p]? = some (some (d ++ (l ++ r))) →
    findLoop O h p (.val e) l.length d.length = FacInfo.find O e l d.length
  | [], d, r, _ => rfl
  | y :: l, d, r, hb => by
    have ih := find_eq (e := e) l (d ++ [y]) r (by rw [hb]; simp)
    rw [List.length_append, List.length_singleton] at ih
    rw [List.length_cons, findLoop, FacInfo.find, Ref.load, ok_bind, get_at (l := d) (x := y) (r := l ++ r) (by rw [hb]; simp), ok_bind, ih]

omit [LinearOrder K] in
theorem find_pos {e : α} : ∀ (l : List (Entry α)) (i : Nat) (b : Bool) (j : Nat), FacInfo.find O e l i = ok (b, j) →
    ∃ a c, l = a ++ c ∧ j = i + a.length ∧ (b = true → c ≠ [])
  | [], i, b, j, h => by
    simp only [FacInfo.find, ok.injEq, Prod.mk.injEq] at h
    exact ⟨[], [], rfl, by simp [h.2], by simp [← h.1]⟩
  | y :: l, i, b, j, h => by
    rw [FacInfo.find] at h
    cases e1 : O.eq e y.1 with
    | ok b1 =>
      rw [e1, ok_bind] at h
      cases b1 with
      | true =>
        simp only [if_true, ok.injEq, Prod.mk.injEq] at h
        exact ⟨[], y :: l, rfl, by simp [h.2], by simp⟩
      | false =>
        simp only [Bool.false_eq_true, if_false] at h
        cases e2 : O.lt e y.1 with
        | ok b2 =>
          rw [e2, ok_bind] at h
          cases b2 with
          | true =>
            simp only [if_true, ok.injEq, Prod.mk.injEq] at h
            exact ⟨[], y :: l, rfl, by simp [h.2], by simp⟩
          | false =>
            simp only [Bool.false_eq_true, if_false] at h
            obtain ⟨a, c, rfl, rfl, h3⟩ := find_pos l (i + 1) b j h
            exact ⟨y :: a, c, rfl, by simp; omega, h3⟩
        | throw => rw [e2] at h; cases h
        | ub => rw [e2] at h; cases h
        | timeout => rw [e2] at h; cases h
    | throw => rw [e1] at h; cases h
    | ub => rw [e1] at h; cases h
    | timeout => rw [e1] at h; cases h

theorem insertIdx_mid {β : Type} (x : β) (c : List β) : ∀ a : List β, (a ++ c).insertIdx a.length x = a ++ x :: c
  | [] => by simp
  | y :: a => by simp [insertIdx_mid x c a]

/-- The result of a call on lists carries over to the heap: the same kind of result, and the list it yields. -/
def Same (h : Heap (Entry α)) (o : Obj α) (r : Res (Heap (Entry α) × Obj α)) (s : Res (FacInfo α)) : Prop :=
  match s with
  | ok f => ∃ h' o', r = ok (h', o') ∧ Good h' o' f.facs ∧ o'.unit = f.unit ∧ Frame h h' o.elements o'.elements
  | .throw => r = Res.throw
  | .ub => r = ub
  | .timeout => r = timeout

omit [LinearOrder K] in
/-- Whatever the comparisons do. -/
theorem insert_same {h : Heap (Entry α)} {o : Obj α} {l : List (Entry α)} (g : Good h o l) (hl : l.length + 20 ≤ 2147483647)
    (e : α) (k : Int) : Same h o (insert O z h o (.val e) k) (FacInfo.insert_factor O ⟨l, o.unit⟩ e k) := by
  have g' := g
  have hlt := g.lt
  obtain ⟨h1, r, e1, h2, h3⟩ := g
  have hf := find_eq (O := O) (e := e) l [] r (by rw [e1]; simp)
  rw [insert, h1, Int.toNat_natCast]
  simp only [List.length_nil] at hf
  rw [hf, FacInfo.insert_factor]
  simp only
  cases e2 : FacInfo.find O e l 0 with
  | ok bj =>
    obtain ⟨b, j⟩ := bj
    obtain ⟨a, c, rfl, rfl, hc⟩ := find_pos l 0 b j e2
    rw [ok_bind, ok_bind]
    simp only [Nat.zero_add]
    cases b with
    | true =>
      obtain ⟨y, c, rfl⟩ : ∃ y c', c = y :: c' := by
        cases c with
        | nil => exact absurd rfl (hc rfl)
        | cons y c => exact ⟨y, c, rfl⟩
      have e3 : h[o.elements]? = some (some (a ++ y :: (c ++ r))) := by rw [e1]; simp
      simp only [if_true]
      rw [get_at e3, ok_bind, rd_ok (by simp), ok_bind, List.getElem_append_right le_rfl]
      simp only [Nat.sub_self, List.getElem_cons_zero]
      by_cases hi : InInt (y.2 + k)
      · have hi' : iadd y.2 k = ok (y.2 + k) := chk_ok hi
        rw [hi', ok_bind, ok_bind, put_at e3, ok_bind]
        refine ⟨_, _, rfl, ⟨by rw [h1]; simp, r, ?_, by rw [h2]; simp, h3⟩, rfl, Frame.set⟩
        rw [List.getElem?_set_self hlt]
        simp only [List.append_assoc, List.set_append_right _ _ (Nat.le_refl _), Nat.sub_self, List.set_cons_zero, List.cons_append]
      · have hi' : iadd y.2 k = ub := chk_ub hi
        rw [hi']
        show _ = _
        rfl
    | false =>
      simp only [Bool.false_eq_true, if_false]
      obtain ⟨hg, og, y, s, j1, j2, j3, j4, j5, j6, j7, -⟩ := grow_ok (z := z) g' hl
      obtain ⟨w, hw⟩ := shift_ok (p := og.elements) (l := a) c s y hg (by rw [j2]; simp)
      have hlt2 : og.elements < hg.length := (List.getElem?_eq_some_iff.1 j2).1
      have e3 : (hg.set og.elements (some (a ++ w :: (c ++ s))))[og.elements]? = some (some (a ++ w :: (c ++ s))) := by
        rw [List.getElem?_set_self hlt2]
      have hi : iadd ((a ++ c).length : Int) 1 = ok (((a ++ c).length + 1 : Nat) : Int) := by
        rw [iadd, chk, if_pos (by unfold InInt; omega)]; simp
      rw [j1, ok_bind]
      simp only
      rw [j3, Int.toNat_natCast, List.length_append, hw, ok_bind, Ref.load, ok_bind, put_at e3, ok_bind, List.set_set,
        ← List.length_append, hi, ok_bind]
      refine ⟨_, _, rfl, ⟨?_, s, ?_, ?_, by omega⟩, j6, j7.trans Frame.set⟩
      · rw [insertIdx_mid]; simp; omega
      · simp only
        rw [List.getElem?_set_self hlt2, insertIdx_mid]; simp
      · simp only
        rw [j4, insertIdx_mid]; simp; omega
  | throw => show _ = _; rfl
  | ub => show _ = _; rfl
  | timeout => show _ = _; rfl

/-! ### Blocks that nobody frees -/

/-- If the call returns at all, its result satisfies `P`. -/
def Post {β : Type} (r : Res β) (P : β → Prop) : Prop := ∀ b, r = ok b → P b

theorem Post.bind {β γ : Type} {r : Res β} {f : β → Res γ} {P : β → Prop} {Q : γ → Prop} (h : Post r P)
    (h' : ∀ b, P b → Post (f b) Q) : Post (r >>= f) Q := by
  intro c hc
  cases r with
  | ok b => exact h' b (h b rfl) c hc
  | throw => cases hc
  | ub => cases hc
  | timeout => cases hc

theorem Post.skip {β γ : Type} {r : Res β} {f : β → Res γ} {Q : γ → Prop} (h' : ∀ b, Post (f b) Q) : Post (r >>= f) Q :=
  Post.bind (P := fun _ => True) (fun _ _ => trivial) fun b _ => h' b

theorem post_ok {β : Type} {b : β} {P : β → Prop} (h : P b) : Post (ok b) P := by rintro _ ⟨⟩; exact h
theorem post_ub {β : Type} {P : β → Prop} : Post (ub : Res β) P := by rintro _ ⟨⟩

/-- The block has been allocated and not been deleted. -/
def Live {β : Type} (h : Heap β) (p : Nat) : Prop := ∃ b, h[p]? = some (some b)

/-- Every live block is still live, and the heap has not shrunk. -/
def Keeps {β : Type} (h g : Heap β) : Prop := (∀ p, Live h p → Live g p) ∧ h.length ≤ g.length

theorem Keeps.refl {β : Type} (h : Heap β) : Keeps h h := ⟨fun _ => id, le_rfl⟩
theorem Keeps.trans {β : Type} {h g k : Heap β} (a : Keeps h g) (b : Keeps g k) : Keeps h k :=
  ⟨fun p hp => b.1 p (a.1 p hp), a.2.trans b.2⟩

theorem put_keeps {β : Type} (h : Heap β) (p : Nat) (i : Int) (x : β) : Post (put h p i x) (Keeps h) := by
  intro g hg
  rw [Stack.put] at hg
  split at hg
  · split at hg
    · cases hg
    · rename_i b hb _
      cases e : wr b i.toNat x with
      | ok c =>
        rw [e] at hg
        cases hg
        refine ⟨fun q ⟨d, hd⟩ => ?_, by simp⟩
        by_cases hq : q = p
        · subst hq
          exact ⟨c, by rw [List.getElem?_set_self (List.getElem?_eq_some_iff.1 hb).1]⟩
        · exact ⟨d, by rw [List.getElem?_set_ne (Ne.symm hq), hd]⟩
      | throw => rw [e] at hg; cases hg
      | ub => rw [e] at hg; cases hg
      | timeout => rw [e] at hg; cases hg
  · cases hg

theorem new_keeps {β : Type} (z : β) (h : Heap β) (n : Int) :
    Post (new z h n) fun r => Keeps h r.1 ∧ r.2 = h.length ∧ h.length < r.1.length := by
  intro r hr
  rw [Stack.new] at hr
  split at hr
  · cases hr
  · cases hr
    refine ⟨⟨fun q ⟨d, hd⟩ => ⟨d, ?_⟩, by simp⟩, rfl, by simp⟩
    rw [List.getElem?_append_left (List.getElem?_eq_some_iff.1 hd).1, hd]

theorem loopUp_post {σ : Type} {body : Nat → σ → Res σ} {I : σ → Prop} (hb : ∀ i s, I s → Post (body i s) I) :
    ∀ (n lo : Nat) (s : σ), I s → Post (loopUp body n lo s) I
  | 0, _, _, h => post_ok h
  | n + 1, lo, s, h => (hb lo s h).bind fun s' h' => loopUp_post hb n (lo + 1) s' h'

theorem loopDown_post {σ : Type} {body : Nat → σ → Res σ} {I : σ → Prop} (hb : ∀ i s, I s → Post (body i s) I) (lo : Nat) :
    ∀ (n : Nat) (s : σ), I s → Post (loopDown body lo n s) I
  | 0, _, h => post_ok h
  | n + 1, s, h => (hb _ s h).bind fun s' h' => loopDown_post hb lo n s' h'

theorem copyLoop_keeps {β : Type} (h : Heap β) (p q : Nat) (n : Int) : Post (copyLoop h p q n) (Keeps h) :=
  loopUp_post (fun i s hs => Post.skip fun x => by
    intro g hg
    exact hs.trans (put_keeps s q i x g hg)) _ _ _ (Keeps.refl h)

/-- Nothing is freed, and the object has its old block or a new one. -/
def KeepsO (h : Heap (Entry α)) (p : Nat) (r : Heap (Entry α) × Obj α) : Prop :=
  Keeps h r.1 ∧ (r.2.elements = p ∨ h.length ≤ r.2.elements)

theorem grow_keeps (h : Heap (Entry α)) (o : Obj α) : Post (grow z h o) (KeepsO h o.elements) := by
  rw [grow]
  split
  · refine Post.skip fun n => (new_keeps z h n).bind fun r hr => (copyLoop_keeps _ _ _ _).bind fun g hg => post_ok ?_
    exact ⟨hr.1.trans hg, Or.inr (by simp only; omega)⟩
  · exact post_ok ⟨Keeps.refl h, Or.inl rfl⟩

theorem shift_keeps (h : Heap (Entry α)) (p n idx : Nat) : Post (shift h p n idx) (Keeps h) :=
  loopDown_post (fun i s hs => Post.skip fun x => by
    intro g hg
    exact hs.trans (put_keeps s p i x g hg)) _ _ _ (Keeps.refl h)

omit [LinearOrder K] in
theorem insert_keeps (h : Heap (Entry α)) (o : Obj α) (e : Ref α) (k : Int) : Post (insert O z h o e k) (KeepsO h o.elements) := by
  rw [insert]
  refine Post.skip fun r => ?_
  split
  · exact Post.skip fun x => Post.skip fun c => (put_keeps _ _ _ _).bind fun g hg => post_ok ⟨hg, Or.inl rfl⟩
  · refine (grow_keeps h o).bind fun g hg => (shift_keeps _ _ _ _).bind fun g2 hg2 => Post.skip fun x =>
      (put_keeps _ _ _ _).bind fun g3 hg3 => Post.skip fun n => post_ok ⟨(hg.1.trans hg2).trans hg3, hg.2⟩

omit [LinearOrder K] in
theorem mergeLoop_keeps (that : Option (Obj α)) : ∀ (k i : Nat) (h : Heap (Entry α)) (o : Obj α),
    Post (mergeLoop O z that k i h o) (KeepsO h o.elements)
  | 0, _, _, _ => by rintro _ ⟨⟩
  | k + 1, i, h, o => by
    rw [mergeLoop]
    split
    · refine Post.skip fun x => (insert_keeps h o _ _).bind fun r hr => ?_
      intro s hs
      have := mergeLoop_keeps that k (i + 1) r.1 r.2 s hs
      refine ⟨hr.1.trans this.1, ?_⟩
      rcases this.2 with e | e
      · rw [e]; exact hr.2
      · exact Or.inr (hr.1.2.trans e)
    · exact post_ok ⟨Keeps.refl h, Or.inl rfl⟩

/-- The block is allocated and no object has it. -/
def Lost (w : World α) (p : Nat) : Prop := Live w.heap p ∧ ∀ (i : Nat) (o : Obj α), w.objs[i]? = some (some o) → o.elements ≠ p

theorem Lost.lt {w : World α} {p : Nat} (h : Lost w p) : p < w.heap.length := by
  obtain ⟨b, hb⟩ := h.1
  exact (List.getElem?_eq_some_iff.1 hb).1

theorem obj_post (w : World α) (i : Nat) : Post (w.obj i) fun o => w.objs[i]? = some (some o) := by
  intro o ho
  rw [World.obj] at ho
  split at ho
  · rename_i o' h
    cases ho
    exact h
  · cases ho

theorem lost_set {w : World α} {p i : Nat} {o : Obj α} (h : Lost w p) (hi : w.objs[i]? = some (some o)) {r : Heap (Entry α) × Obj α}
    (hr : KeepsO w.heap o.elements r) {v : Option α} : Lost ⟨r.1, w.objs.set i (some { r.2 with unit := v })⟩ p := by
  have hp := h.lt
  refine ⟨hr.1.1 p h.1, fun j t hj => ?_⟩
  simp only at hj
  by_cases e : j = i
  · subst e
    rw [List.getElem?_set_self (List.getElem?_eq_some_iff.1 hi).1] at hj
    cases hj
    rcases hr.2 with e | e
    · simp only; rw [e]; exact h.2 _ _ hi
    · simp only; omega
  · rw [List.getElem?_set_ne (Ne.symm e)] at hj
    exact h.2 j t hj

theorem lost_add {w : World α} {p : Nat} (h : Lost w p) {r : Heap (Entry α) × Obj α} (hr : Keeps w.heap r.1)
    (hn : w.heap.length ≤ r.2.elements) : Lost ⟨r.1, w.objs ++ [some r.2]⟩ p := by
  have hp := h.lt
  refine ⟨hr.1 p h.1, fun j t hj => ?_⟩
  simp only at hj
  rw [List.getElem?_append] at hj
  split at hj
  · exact h.2 j t hj
  · have := List.mem_of_getElem? hj
    simp only [List.mem_singleton, Option.some.injEq] at this
    subst this
    omega

omit [LinearOrder K] in
/-- Once lost, always lost. -/
theorem step_lost {w : World α} {p : Nat} (h : Lost w p) (o : Op α) : Post (step O z w o) fun w' => Lost w' p := by
  have hp := h.lt
  cases o with
  | create =>
    refine Post.bind (P := fun r => Keeps w.heap r.1 ∧ w.heap.length ≤ r.2.elements) ?_ fun r hr => post_ok (lost_add h hr.1 hr.2)
    exact (new_keeps _ _ _).bind fun r hr => post_ok ⟨hr.1, by simp only; omega⟩
  | copy i =>
    refine (obj_post w i).bind fun o ho =>
      Post.bind (P := fun r => Keeps w.heap r.1 ∧ w.heap.length ≤ r.2.elements) ?_ fun r hr => post_ok (lost_add h hr.1 hr.2)
    exact (new_keeps _ _ _).bind fun r hr => (copyLoop_keeps _ _ _ _).bind fun g hg =>
      post_ok ⟨hr.1.trans hg, by simp only; omega⟩
  | insert i e k =>
    exact (obj_post w i).bind fun o ho => (insert_keeps _ _ _ _).bind fun r hr => post_ok (lost_set h ho hr)
  | unit i e =>
    refine (obj_post w i).bind fun o ho => Post.bind (P := fun o' => o'.elements = o.elements) ?_ fun o' ho' =>
      post_ok (lost_set (r := (w.heap, o')) h ho ⟨Keeps.refl _, Or.inl ho'⟩)
    rw [insertUnit]
    split
    · exact Post.skip fun u => post_ok rfl
    · exact post_ok rfl
  | exp i q =>
    refine (obj_post w i).bind fun o ho => Post.bind (P := fun r => KeepsO w.heap o.elements r) ?_ fun r hr => post_ok (lost_set h ho hr)
    refine Post.skip fun u => Post.bind (P := Keeps w.heap) ?_ fun g hg => post_ok ⟨hg, Or.inl rfl⟩
    exact loopUp_post (fun i s hs => Post.skip fun x => Post.skip fun c => by
      intro g hg
      exact hs.trans (put_keeps s _ _ _ g hg)) _ _ _ (Keeps.refl _)
  | merge i j =>
    refine (obj_post w i).bind fun o ho => Post.skip fun t => Post.bind (P := fun r => KeepsO w.heap o.elements r) ?_
      fun r hr => post_ok (lost_set h ho hr)
    exact (mergeLoop_keeps _ _ _ _ _).bind fun r hr => Post.skip fun u => post_ok hr
  | destroy i =>
    refine (obj_post w i).bind fun o ho => ?_
    have hne := h.2 i o ho
    intro w' hw'
    simp only [dtor, Stack.delete] at hw'
    split at hw'
    · cases hw'
      refine ⟨?_, fun j t hj => ?_⟩
      · obtain ⟨b, hb⟩ := h.1
        exact ⟨b, by simp only; rw [List.getElem?_set_ne hne, hb]⟩
      · simp only at hj
        by_cases e : j = i
        · subst e
          rw [List.getElem?_set_self (List.getElem?_eq_some_iff.1 ho).1] at hj
          cases hj
        · rw [List.getElem?_set_ne (Ne.symm e)] at hj
          exact h.2 j t hj
    · cases hw'

omit [LinearOrder K] in
theorem run_lost {p : Nat} : ∀ (ops : List (Op α)) {w : World α}, Lost w p → Post (run O z ops w) fun w' => Lost w' p
  | [], _, h => post_ok h
  | o :: ops, _, h => (step_lost h o).bind fun _ h' => run_lost ops h'

/-- A new factor for a full array: the old array is lost. -/
theorem insert_lost (L : Lawful O V key) (h : Inv V key E w S) {i : Nat} {o : Obj α} {F : Spec α} {e : α} {k : Int}
    (hi : w.objs[i]? = some (some o)) (hS : S[i]? = some (some F)) (hv : V e) (hn : F.cnt e = none)
    (hfull : o.num_allocated = o.num_distinct) (hE : E.length + 20 ≤ 2147483647) :
    Post (step O z w (.insert i e k)) fun w' => Lost w' o.elements := by
  obtain ⟨o', h0, h1, l, h2, h3, h4⟩ := h.live hS
  obtain rfl : o = o' := by rw [hi] at h0; simpa using h0
  obtain ⟨a, b, rfl, ha, hb⟩ := split_at (key := key) e l h3.asc
  have hb : ∀ p ∈ b, key e < key p.1 := by
    rcases hb with ⟨y, c, rfl, hy, -⟩ | hb
    · obtain rfl := L.inj hv (h3.val y (by simp)) hy
      have := (h3.den y.1 y.2).2 (by simp)
      rw [hn] at this
      cases this
    · exact hb
  have hlen := h3.asc.length_le h3.sub
  obtain ⟨g, o', i1, i2, i3, i4, i5⟩ := insert_new (z := z) L (k := k) (e := .val e) h2 (fun _ _ _ => rfl) ha hb hv h3.val (by omega)
  have i6 := i5 (by rw [hfull, h2.1])
  have hlt := h2.lt
  have hk := insert_keeps w.heap o (.val e) k _ i1
  intro w' hw'
  rw [step, h1, ok_bind, i1, ok_bind] at hw'
  cases hw'
  obtain ⟨r, hr, -⟩ := h2.2
  refine ⟨hk.1.1 _ ⟨_, hr⟩, fun j t hj => ?_⟩
  simp only at hj
  by_cases e : j = i
  · subst e
    rw [List.getElem?_set_self (List.getElem?_eq_some_iff.1 hi).1] at hj
    cases hj
    omega
  · rw [List.getElem?_set_ne (Ne.symm e)] at hj
    exact fun he => e (h.inj j i t o hj hi he)

theorem inv_empty : Inv V key [] (⟨[], []⟩ : World α) [] := ⟨rfl, by simp, by simp, by simp⟩

end FacStore
end Spffl
