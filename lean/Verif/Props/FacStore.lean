/-
Property C114: the storage of factor lists.
-/
import Verif.Proof.FacProg
import Verif.Proof.F2Factor

namespace Spffl.Props
open Res
namespace FacStores
open FacStore
open Stack (Heap)

variable {α K : Type} [LinearOrder K] {O : EltOps α} {V : α → Prop} {key : α → K}

/-- C114: any program that creates, copies, fills, multiplies out, merges (also with themselves) and destroys factor lists, any
number of them, each used only while it exists, runs without undefined behaviour and without exception.  Afterwards each list
that still exists holds its factors in strictly ascending order, exactly those inserted, each with the sum of its counts, and
the product of its units; no list is affected by operations on another one, copies included.  `SRun` is the program on
functions that give the count of each factor.  `O` has to compare like a linear order (`Lawful`). -/
theorem C114_factor_lists (L : Lawful O V key) (z : Entry α) (ops : List (Op α)) (hn : (ops.length : Int) + 20 ≤ INT_MAX)
    {S : List (Option (Spec α))} (h : SRun O V ops [] S) :
    ∃ w, run O z ops ⟨[], []⟩ = ok w ∧ ∀ (i : Nat) (F : Spec α), S[i]? = some (some F) →
      ∃ (o : Obj α) (l : List (Entry α)) (room : List (Entry α)), w.objs[i]? = some (some o) ∧
        w.heap[o.elements]? = some (some (l ++ room)) ∧ o.num_distinct = l.length ∧ o.num_allocated = (l ++ room).length ∧
        l.Pairwise (fun p q => key p.1 < key q.1) ∧ (∀ a c, F.cnt a = some c ↔ (a, c) ∈ l) ∧ o.unit = F.unit := by
  obtain ⟨w, E, h1, h2⟩ := run_ok (z := z) L h (E := []) inv_empty (by unfold INT_MAX at hn; simp; omega)
  refine ⟨w, h1, fun i F hF => ?_⟩
  obtain ⟨o, h3, -, l, ⟨h4, r, h5, h6, -⟩, h7, h8⟩ := h2.live hF
  exact ⟨o, l, r, h3, h5, h4, by rw [h6]; simp, h7.asc, h7.den, h8⟩

/-- The comparisons of ints are lawful. -/
theorem C114_int : Lawful intOps InInt (id : Int → Int) where
  eq := by intro x y _ _; simp only [intOps, id]; congr 1
  lt := by intro x y _ _; rfl
  inj := by intro x y _ _ h; exact h

/-- Those of polynomials over the field with two elements are, on canonical arrays. -/
theorem C114_f2_poly : Lawful F2P.eltOps F2P.Canon (fun a => F2P.nval (F2P.toPoly a)) where
  eq := by
    intro x y hx hy
    show F2P.eq x y = _
    rw [F2P.eq_ok hx.ne_nil hy.ne_nil]
    congr 1
    exact decide_eq_decide.2 ⟨fun h => by rw [h], fun h => F2P.facRef.key_inj h⟩
  lt := by
    intro x y hx hy
    exact F2P.lt_ok hx.ne_nil hy.ne_nil
  inj := by
    intro x y hx hy h
    exact hx.eq hy (F2P.facRef.key_inj h)

/-- The list of an object, as read through `get_ith_factor` and `get_ith_count`: in range the entry, otherwise an exception. -/
theorem C114_get_ith {h : Heap (Entry α)} {o : Obj α} {l room : List (Entry α)} (hb : h[o.elements]? = some (some (l ++ room)))
    (hn : o.num_distinct = l.length) (k : Int) :
    getIth h o k = if hk : 0 ≤ k ∧ k.toNat < l.length then ok (l[k.toNat]'hk.2) else throw := by
  rw [getIth]
  split
  · rw [dif_neg (by omega)]
  · rename_i hk
    have h2 : k.toNat < l.length := by omega
    rw [dif_pos ⟨by omega, h2⟩, Stack.get, hb]
    simp only
    rw [if_neg (by omega), rd_ok (by simp; omega), List.getElem_append_left h2]

/-- Inserting into the array is inserting into the list, as the factorization functions are modelled, whatever the comparisons
of the element type do: the same exceptions, the same undefined behaviour, and otherwise the array begins with that list. -/
theorem C114_list_model (z : Entry α) {h : Heap (Entry α)} {o : Obj α} {l : List (Entry α)} (g : Good h o l)
    (hl : (l.length : Int) + 20 ≤ INT_MAX) (e : α) (k : Int) :
    match FacInfo.insert_factor O ⟨l, o.unit⟩ e k with
    | ok f => ∃ h' o' room, insert O z h o (.val e) k = ok (h', o') ∧ h'[o'.elements]? = some (some (f.facs ++ room)) ∧
        o'.num_distinct = f.facs.length ∧ o'.unit = f.unit
    | .throw => insert O z h o (.val e) k = Res.throw
    | .ub => insert O z h o (.val e) k = ub
    | .timeout => insert O z h o (.val e) k = timeout := by
  have := insert_same (O := O) (z := z) g (by unfold INT_MAX at hl; omega) e k
  unfold Same at this
  revert this
  cases FacInfo.insert_factor O ⟨l, o.unit⟩ e k with
  | ok f =>
    rintro ⟨h', o', h1, ⟨h2, r, h3, -⟩, h4, -⟩
    exact ⟨h', o', r, h1, h3, h2, h4⟩
  | throw => exact id
  | ub => exact id
  | timeout => exact id

/-- C114 does not extend to memory: when a new factor finds the array full (always so for the first one after copying), the old
array is neither deleted nor used again: whatever the program does from then on, it stays allocated and belongs to no list. -/
theorem C114_violated_leak (L : Lawful O V key) (z : Entry α) (ops : List (Op α)) (hn : (ops.length : Int) + 20 ≤ INT_MAX)
    {S : List (Option (Spec α))} (h : SRun O V ops [] S) {w : World α} (hw : run O z ops ⟨[], []⟩ = ok w) {i : Nat} {o : Obj α}
    {F : Spec α} {e : α} {k : Int} (hi : w.objs[i]? = some (some o)) (hS : S[i]? = some (some F)) (hv : V e)
    (hnew : F.cnt e = none) (hfull : o.num_allocated = o.num_distinct) (more : List (Op α)) {w' : World α}
    (hw' : run O z (.insert i e k :: more) w = ok w') :
    (∃ b, w'.heap[o.elements]? = some (some b)) ∧
      ∀ (j : Nat) (t : Obj α), w'.objs[j]? = some (some t) → t.elements ≠ o.elements := by
  unfold INT_MAX at hn
  obtain ⟨v, E, h1, h2, h3⟩ : ∃ v E, run O z ops ⟨[], []⟩ = ok v ∧ Inv V key E v S ∧ E.length ≤ ops.length := by
    have := run_ok_len (z := z) L h (E := []) inv_empty (by simp; omega)
    simpa using this
  rw [hw] at h1
  cases h1
  have hl := insert_lost (z := z) L (k := k) h2 hi hS hv hnew hfull (by omega)
  exact (hl.bind (f := fun w => run O z more w) (Q := fun w' => Lost w' o.elements) fun _ h' => run_lost more h') w' hw'

/-- The statements of `operator=` copy another list (the operator has no `return`, which is undefined behaviour all the same). -/
theorem C114_assign_body (z : Entry α) {h : Heap (Entry α)} {o t : Obj α} {l m : List (Entry α)} (g : Good h o l) (gt : Good h t m)
    (hne : o.elements ≠ t.elements) :
    (assignBody z h o t false).Ok fun r => Good r.1 r.2 m ∧ Good r.1 t m ∧ r.2.unit = t.unit ∧ r.2.elements ≠ t.elements := by
  have hlt := g.lt
  have hlt' := gt.lt
  obtain ⟨r, e, -⟩ := g.2
  obtain ⟨g1, s, e1, g2, g3⟩ := gt
  have e2 : (h.set o.elements none)[t.elements]? = some (some (m ++ s)) := by rw [List.getElem?_set_ne hne, e1]
  have := copyOut (z := z) e2 0
  rw [assignBody, Stack.delete, e]
  simp only [Bool.false_eq_true, if_false]
  rw [ok_bind, g1, Stack.new_ok _ (by omega), ok_bind, Int.toNat_natCast]
  simp only [Nat.add_zero] at this
  rw [this, ok_bind, Ok_ok]
  have hlen : (h.set o.elements none).length = h.length := by simp
  refine ⟨⟨rfl, [], ?_, by simp, by simp⟩, ⟨g1, s, ?_, g2, g3⟩, rfl, ?_⟩
  · simp
  · rw [List.getElem?_append_left (by omega), e2]
  · simp only [hlen]; omega

/-- Assigning a list to itself loses every factor and count: what was deleted is not what is copied. -/
theorem C114_violated_self_assign (z : Entry α) {h : Heap (Entry α)} {o : Obj α} {l : List (Entry α)} (g : Good h o l) :
    (assignBody z h o o true).Ok fun r => Good r.1 r.2 (List.replicate l.length z) := by
  obtain ⟨g1, s, e1, -, -⟩ := g
  rw [assignBody, Stack.delete, e1]
  simp only [if_true]
  rw [ok_bind, g1, Stack.new_ok _ (by omega), ok_bind, Int.toNat_natCast]
  set h' := h.set o.elements none with hh'
  have hd : (h' ++ [some (List.replicate l.length z)])[h'.length]? = some (some (List.replicate l.length z)) := by
    rw [List.getElem?_append_right le_rfl]; simp
  have hloop : Stack.copyLoop (h' ++ [some (List.replicate l.length z)]) h'.length h'.length l.length =
      ok (h' ++ [some (List.replicate l.length z)]) := by
    rw [Stack.copyLoop, ← Ok_eq_iff, Int.toNat_natCast]
    refine forUp_ok (fun _ g => g = h' ++ [some (List.replicate l.length z)]) (Nat.zero_le _) rfl ?_
    rintro i g - hi rfl
    rw [Stack.get, hd]
    simp only [Int.toNat_natCast]
    rw [if_neg (by omega), rd_ok (by simp; omega), ok_bind, Stack.put_ok hd (by simp; omega), Ok_ok]
    simp
  rw [hloop, ok_bind, Ok_ok]
  exact ⟨by simp, [], by simp, by simp, by simp⟩

/-! ### Examples -/

/-- What an object of a finished program holds. -/
def contents (r : Res (World Int)) (i : Nat) : Option (List (Entry Int) × Option Int) :=
  match r with
  | ok w =>
    match w.objs[i]? with
    | some (some o) =>
      match w.heap[o.elements]? with
      | some (some b) => some (b.take o.num_distinct.toNat, o.unit)
      | _ => none
    | _ => none
  | _ => none

/-- Two lists filled out of order, one copied, merged with the other and with itself. -/
def demo : List (Op Int) :=
  [.create, .insert 0 7 1, .insert 0 2 3, .insert 0 7 2, .unit 0 (-1), .copy 0, .create, .insert 2 5 4, .insert 2 7 1, .unit 2 (-1),
    .merge 1 2, .merge 1 1, .exp 2 3, .insert 0 3 1]

example : contents (run intOps (0, 0) demo ⟨[], []⟩) 0 = some ([(2, 3), (3, 1), (7, 3)], some (-1)) ∧
    contents (run intOps (0, 0) demo ⟨[], []⟩) 1 = some ([(2, 6), (5, 8), (7, 8)], some 1) ∧
    contents (run intOps (0, 0) demo ⟨[], []⟩) 2 = some ([(5, 12), (7, 3)], some (-1)) := by
  decide +kernel

/-- Twenty-one factors, destroyed afterwards: the first array remains. -/
example : (match run intOps (0, 0) ([.create] ++ ((List.range 21).map fun i => .insert 0 (21 - i : Int) 1) ++ [.destroy 0])
      ⟨[], []⟩ with
    | ok w => w.heap.map Option.isSome == [true, false] && w.objs == [none]
    | _ => false) = true := by decide +kernel

/-- A program the theorem speaks about: two factors, one of them twice, and a copy. -/
example : ∃ S, SRun intOps InInt [.create, .insert 0 7 1, .insert 0 2 3, .insert 0 7 2, .copy 0, .merge 1 1] [] S ∧
    ∃ F, S[1]? = some (some F) ∧ F.cnt 7 = some 6 ∧ F.cnt 2 = some 6 ∧ F.cnt 3 = none := by
  refine ⟨_, .cons .create (.cons (.insert (F := ⟨fun _ => none, none⟩) rfl (by decide) (by decide))
    (.cons (.insert (F := ⟨addCnt (fun _ => none) 7 1, none⟩) rfl (by decide) (by simp [addCnt, InInt]))
    (.cons (.insert (F := ⟨addCnt (addCnt (fun _ => none) 7 1) 2 3, none⟩) rfl (by decide) (by simp [addCnt, InInt]))
    (.cons (.copy (F := ⟨addCnt (addCnt (addCnt (fun _ => none) 7 1) 2 3) 7 2, none⟩) rfl)
    (.cons (.merge (F := ⟨addCnt (addCnt (addCnt (fun _ => none) 7 1) 2 3) 7 2, none⟩)
      (G := ⟨addCnt (addCnt (addCnt (fun _ => none) 7 1) 2 3) 7 2, none⟩) rfl rfl ?_ (.right none)) (.nil _)))))),
    _, rfl, ?_, ?_, ?_⟩
  · intro a c d hc hd
    have : c = d := by rw [hc] at hd; simpa using hd
    subst this
    simp only [addCnt] at hc
    split_ifs at hc
    all_goals first | (simp at hc; subst hc; decide) | simp at hc
  · simp [sumCnt, addCnt]
  · simp [sumCnt, addCnt]
  · simp [sumCnt, addCnt]

end FacStores
end Spffl.Props
