/-
Programs on polynomial objects: the heap model against values.
-/
import Verif.Proof.PolyStore

namespace Spffl
open Res
namespace PolyStore
open Stack (Heap new delete get put)

variable {α : Type} {O : CoefOps α} {inv : α}

/-! ### Values -/

abbrev Vals (α : Type) := List (Option (CPoly α))

def val (S : Vals α) (i : Nat) : Res (CPoly α) :=
  match S[i]? with
  | some (some P) => ok P
  | _ => ub

variable (O inv)

/-- What is left of a polynomial assigned to itself: coefficients nobody has set. -/
def lost (P : CPoly α) : CPoly α := ⟨P.degree, CPoly.new O (P.degree + 1)⟩

def vassign (S : Vals α) (k i : Nat) : Res (Vals α) := do
  let _ ← val S k
  let P ← val S i
  let Q ← if k = i then ok (lost O P) else CPoly.copy O P
  ok (S.set k (some Q))

/-- `quot_and_rem` on values; the number is that of the arrays that are lost. -/
def vquot (S : Vals α) (i j k l : Nat) : Res (Vals α × Nat) := do
  let A ← val S i
  let B ← val S j
  let _ ← val S k
  let _ ← val S l
  let c0 ← rd A.coeffs 0
  let zero ← O.sub c0 c0
  let bz ← CPoly.eqConst O B zero
  if bz then throw
  else do
    let az ← CPoly.eqConst O A zero
    if az ∨ A.degree < B.degree then do
      let q ← CPoly.psub O A 0
      let q ← CPoly.copy O q
      let S ← vassign O (S.set k (some q)) l i
      ok (S, 0)
    else do
      let s ← CPoly.longDiv O zero A B
      let q ← CPoly.copy O s.1
      let r ← CPoly.copy O s.2
      ok ((S.set k (some q)).set l (some r), 1)

def vstep (S : Vals α) : Op α → Res (Vals α × Nat)
  | .create => ok (S ++ [some ⟨0, [inv]⟩], 0)
  | .const c => do
    let P ← CPoly.const O c
    ok (S ++ [some P], 0)
  | .copy i => do
    let A ← val S i
    let P ← CPoly.copy O A
    ok (S ++ [some P], 0)
  | .assign i j => do
    let S ← vassign O S i j
    ok (S, 0)
  | .add i j => do
    let A ← val S i
    let B ← val S j
    let P ← CPoly.add O A B
    ok (S ++ [some P], 1)
  | .sub i j => do
    let A ← val S i
    let B ← val S j
    let P ← CPoly.sub O A B
    ok (S ++ [some P], 1)
  | .neg i => do
    let A ← val S i
    let P ← CPoly.neg O A
    ok (S ++ [some P], 1)
  | .mul i j => do
    let A ← val S i
    let B ← val S j
    let P ← CPoly.mul O A B
    ok (S ++ [some P], 1)
  | .smul i c => do
    let A ← val S i
    let P ← CPoly.smul O A c
    ok (S ++ [some P], 0)
  | .set i pos c => do
    let A ← val S i
    let P ← CPoly.set_coeff O A pos c
    ok (S.set i (some P), 0)
  | .divmod i j k l => vquot O S i j k l
  | .destroy i => do
    let _ ← val S i
    ok (S.set i none, 0)

/-- The values after a program, and the number of arrays lost. -/
def vrun : List (Op α) → Vals α → Nat → Res (Vals α × Nat)
  | [], S, n => ok (S, n)
  | o :: ops, S, n => do
    let r ← vstep O inv S o
    vrun ops r.1 (n + r.2)

variable {O inv}

/-! ### The invariant -/

structure Inv (w : World α) (S : Vals α) (L : Nat) : Prop where
  len : w.objs.length = S.length
  obj : ∀ (i : Nat) (P : CPoly α), S[i]? = some (some P) → ∃ o, w.objs[i]? = some (some o) ∧ Has w.heap o P
  non : ∀ i : Nat, S[i]? = some none → w.objs[i]? = some none
  inj : ∀ (i j : Nat) (o o' : Obj), w.objs[i]? = some (some o) → w.objs[j]? = some (some o') → o.coeffs = o'.coeffs → i = j
  live : live w.heap = S.countP Option.isSome + L

variable {w : World α} {S : Vals α} {L : Nat}

theorem Inv.back (h : Inv w S L) {i : Nat} {o : Obj} (hi : w.objs[i]? = some (some o)) : ∃ P, S[i]? = some (some P) ∧ Has w.heap o P := by
  have hlt : i < S.length := by rw [← h.len]; exact (List.getElem?_eq_some_iff.1 hi).1
  obtain ⟨x, hx⟩ : ∃ x, S[i]? = some x := ⟨_, List.getElem?_eq_getElem hlt⟩
  cases x with
  | none => rw [h.non i hx] at hi; cases hi
  | some P =>
    obtain ⟨o', h1, h2⟩ := h.obj i P hx
    rw [h1] at hi
    cases hi
    exact ⟨P, hx, h2⟩

theorem obj_sim (h : Inv w S L) (i : Nat) : Sim (w.obj i) (val S i) fun o P =>
    w.objs[i]? = some (some o) ∧ S[i]? = some (some P) ∧ Has w.heap o P := by
  unfold World.obj val
  rcases hS : S[i]? with _ | _ | P
  · have : w.objs[i]? = none := by
      rw [List.getElem?_eq_none_iff] at hS ⊢
      rw [h.len]; exact hS
    rw [this]; trivial
  · rw [h.non i hS]; trivial
  · obtain ⟨o, h1, h2⟩ := h.obj i P hS
    rw [h1]
    exact ⟨rfl, rfl, h2⟩

theorem Inv.push (h : Inv w S L) {r : Heap α × Obj} {P : CPoly α} {n : Nat} (F : Fresh w.heap r P (n + 1)) :
    Inv (w.push r) (S ++ [some P]) (L + n) := by
  unfold World.push
  have hnew : ∀ (i : Nat) (o : Obj), w.objs[i]? = some (some o) → o.coeffs ≠ r.2.coeffs := by
    intro i o hi e
    obtain ⟨P, -, hP⟩ := h.back hi
    have := lt_of hP.at_
    have := F.own.ge
    omega
  refine ⟨by simp [h.len], fun i Q hi => ?_, fun i hi => ?_, fun i j o o' hi hj e => ?_, ?_⟩
  · rw [List.getElem?_append] at hi
    split at hi
    · rename_i hlt
      obtain ⟨o, h1, h2⟩ := h.obj i Q hi
      refine ⟨o, ?_, h2.fr F.own.fr⟩
      show (w.objs ++ [some r.2])[i]? = _
      rw [List.getElem?_append_left (by rw [h.len]; exact hlt), h1]
    · have : i - S.length = 0 := by
        by_contra hc
        rw [List.getElem?_eq_none (by simp; omega)] at hi
        cases hi
      rw [this] at hi
      simp only [List.getElem?_cons_zero, Option.some.injEq] at hi
      subst hi
      refine ⟨r.2, ?_, F.has⟩
      show (w.objs ++ [some r.2])[i]? = _
      have : i = w.objs.length := by rw [h.len]; omega
      subst this
      simp
  · rw [List.getElem?_append] at hi
    split at hi
    · rename_i hlt
      show (w.objs ++ [some r.2])[i]? = _
      rw [List.getElem?_append_left (by rw [h.len]; exact hlt), h.non i hi]
    · rcases hk : i - S.length with _ | k
      · rw [hk] at hi; simp at hi
      · rw [hk, List.getElem?_eq_none (by simp)] at hi; cases hi
  · have key : ∀ (i : Nat) (o : Obj), (w.objs ++ [some r.2])[i]? = some (some o) → w.objs[i]? = some (some o) ∨ (i = w.objs.length ∧ o = r.2) := by
      intro i o hi
      rw [List.getElem?_append] at hi
      split at hi
      · exact Or.inl hi
      · rcases hk : i - w.objs.length with _ | k
        · rw [hk] at hi
          simp only [List.getElem?_cons_zero, Option.some.injEq] at hi
          exact Or.inr ⟨by omega, hi.symm⟩
        · rw [hk, List.getElem?_eq_none (by simp)] at hi; cases hi
    rcases key i o hi with h1 | ⟨h1, rfl⟩ <;> rcases key j o' hj with h2 | ⟨h2, rfl⟩
    · exact h.inj i j o o' h1 h2 e
    · exact absurd e (hnew i o h1)
    · exact absurd e.symm (hnew j o' h2)
    · rw [h1, h2]
  · show PolyStore.live r.1 = _
    rw [F.own.fr.live, h.live]
    simp; omega

theorem countP_set_some {i : Nat} {P Q : CPoly α} (h : S[i]? = some (some P)) : (S.set i (some Q)).countP Option.isSome = S.countP Option.isSome := by
  obtain ⟨h1, h2⟩ := List.getElem?_eq_some_iff.1 h
  have : 0 < List.countP Option.isSome S := List.countP_pos_iff.2 ⟨some P, h2 ▸ List.getElem_mem h1, rfl⟩
  rw [List.countP_set h1, h2]
  simp only [Option.isSome_some, if_true]
  omega

theorem countP_set_none {i : Nat} {P : CPoly α} (h : S[i]? = some (some P)) : (S.set i none).countP Option.isSome + 1 = S.countP Option.isSome := by
  obtain ⟨h1, h2⟩ := List.getElem?_eq_some_iff.1 h
  have : 0 < List.countP Option.isSome S := List.countP_pos_iff.2 ⟨some P, h2 ▸ List.getElem_mem h1, rfl⟩
  rw [List.countP_set h1, h2]
  simp
  omega

theorem Inv.upd (h : Inv w S L) {i : Nat} {o : Obj} {A : CPoly α} (hi : w.objs[i]? = some (some o)) (hS : S[i]? = some (some A))
    {r : Heap α × Obj} {P : CPoly α} (U : Upd w.heap o r P) : Inv ⟨r.1, w.objs.set i (some r.2)⟩ (S.set i (some P)) L := by
  have hio : i < w.objs.length := (List.getElem?_eq_some_iff.1 hi).1
  have hiS : i < S.length := (List.getElem?_eq_some_iff.1 hS).1
  have hnew : ∀ (j : Nat) (o' : Obj), j ≠ i → w.objs[j]? = some (some o') → o'.coeffs ≠ r.2.coeffs := by
    intro j o' hj ho' e
    rcases U.new with h1 | h1
    · exact hj (h.inj j i o' o ho' hi (e.trans h1))
    · obtain ⟨P, -, hP⟩ := h.back ho'
      have := lt_of hP.at_
      omega
  refine ⟨by simp [h.len], fun j Q hj => ?_, fun j hj => ?_, fun j k a b hj hk e => ?_, ?_⟩
  · by_cases hji : j = i
    · subst hji
      rw [List.getElem?_set_self hiS] at hj
      cases hj
      exact ⟨r.2, by simp only; rw [List.getElem?_set_self hio], U.has⟩
    · rw [List.getElem?_set_ne (Ne.symm hji)] at hj
      obtain ⟨o', h1, h2⟩ := h.obj j Q hj
      refine ⟨o', by simp only; rw [List.getElem?_set_ne (Ne.symm hji), h1], ?_, h2.deg⟩
      simp only
      rw [U.eq _ (lt_of h2.at_) (fun e => hji (h.inj j i o' o h1 hi e))]
      exact h2.at_
  · by_cases hji : j = i
    · subst hji
      rw [List.getElem?_set_self hiS] at hj
      cases hj
    · rw [List.getElem?_set_ne (Ne.symm hji)] at hj
      simp only
      rw [List.getElem?_set_ne (Ne.symm hji), h.non j hj]
  · simp only at hj hk
    by_cases hji : j = i <;> by_cases hki : k = i
    · rw [hji, hki]
    · subst hji
      rw [List.getElem?_set_self hio] at hj
      rw [List.getElem?_set_ne (Ne.symm hki)] at hk
      cases hj
      exact absurd e.symm (hnew k b hki hk)
    · subst hki
      rw [List.getElem?_set_self hio] at hk
      rw [List.getElem?_set_ne (Ne.symm hji)] at hj
      cases hk
      exact absurd e (hnew j a hji hj)
    · rw [List.getElem?_set_ne (Ne.symm hji)] at hj
      rw [List.getElem?_set_ne (Ne.symm hki)] at hk
      exact h.inj j k a b hj hk e
  · show PolyStore.live r.1 = _
    rw [U.live, h.live, countP_set_some hS]

theorem Inv.fr (h : Inv w S L) {g : Heap α} {n : Nat} (F : Fr w.heap g n) : Inv ⟨g, w.objs⟩ S (L + n) :=
  ⟨h.len, fun i P hi => by obtain ⟨o, h1, h2⟩ := h.obj i P hi; exact ⟨o, h1, h2.fr F⟩, h.non, h.inj, by
    show PolyStore.live g = _
    rw [F.live, h.live]; omega⟩

/-- A live array no object owns. -/
def Temp (w : World α) (p : Nat) (b : List α) : Prop :=
  w.heap[p]? = some (some b) ∧ ∀ (i : Nat) (o : Obj), w.objs[i]? = some (some o) → o.coeffs ≠ p

theorem Inv.free (h : Inv w S (L + 1)) {p : Nat} {b : List α} (T : Temp w p b) : Inv ⟨w.heap.set p none, w.objs⟩ S L :=
  ⟨h.len, fun i P hi => by
    obtain ⟨o, h1, h2⟩ := h.obj i P hi
    exact ⟨o, h1, by
      have := h2.at_
      rw [← List.getElem?_set_ne (Ne.symm (T.2 i o h1)) (a := none)] at this
      exact this, h2.deg⟩, h.non, h.inj, by
    have := live_del T.1
    have := h.live
    show PolyStore.live (w.heap.set p none) = _
    omega⟩

theorem Temp.free {p q : Nat} {b c : List α} (T : Temp w p b) (hpq : p ≠ q) (_ : Temp w q c) : Temp ⟨w.heap.set q none, w.objs⟩ p b :=
  ⟨by show (w.heap.set q none)[p]? = _; rw [List.getElem?_set_ne (Ne.symm hpq)]; exact T.1, T.2⟩

theorem assign_world (h : Inv w S L) {k : Nat} {A : CPoly α} (hk : S[k]? = some (some A)) {src : Obj} {T : CPoly α}
    (ht : Has w.heap src T) (hs : Temp w src.coeffs T.coeffs) :
    Sim (World.assign O w k src) (CPoly.copy O T) fun w' P => Inv w' (S.set k (some P)) L ∧
      ∀ p b, Temp w p b → Temp w' p b := by
  unfold World.assign
  obtain ⟨o, ho, hA⟩ := h.obj k A hk
  have hobj : w.obj k = ok o := by unfold World.obj; rw [ho]
  rw [hobj, ok_bind]
  conv => arg 2; rw [← bind_pure (CPoly.copy O T)]
  refine (assign_sim hA.at_ ht (hs.2 k o ho).symm).bind fun r P ⟨U, hr⟩ => ?_
  refine ⟨h.upd ho hk U, fun p b hT => ⟨?_, fun i o' hi e => ?_⟩⟩
  · show r.1[p]? = _
    rw [U.eq p (lt_of hT.1) (hT.2 k o ho).symm]
    exact hT.1
  · simp only at hi
    by_cases hik : i = k
    · subst hik
      rw [List.getElem?_set_self (List.getElem?_eq_some_iff.1 ho).1] at hi
      cases hi
      have := lt_of hT.1
      omega
    · rw [List.getElem?_set_ne (Ne.symm hik)] at hi
      exact hT.2 i o' hi e

/-- An array copied to itself stays as it is. -/
theorem self_loop {h g : Heap α} {p d n : Nat} (H : Own h g p (CPoly.new O d) n) :
    (copyLoop g p p 0 d).Ok fun g' => Own h g' p (CPoly.new O d) n := by
  unfold copyLoop
  refine forUp_ok (fun _ g' => Own h g' p (CPoly.new O d) n) (Nat.zero_le d) H fun i g' _ hi H => ?_
  have hl : i < (CPoly.new O d).length := by simpa [CPoly.new] using hi
  unfold store
  rw [get_eq H.at_, rd_ok hl, ok_bind, put_eq H.at_, wr_ok hl, ok_bind, Ok_ok, List.set_getElem_self]
  exact ⟨H.fr.set H.ge H.at_ _, H.ge, by rw [List.getElem?_set_self (lt_of H.at_)]⟩

theorem assign_self {h : Heap α} {o : Obj} {P : CPoly α} (ho : Has h o P) : (assign O h o o true).Ok fun r => Upd h o r (lost O P) := by
  unfold assign
  rw [delete_eq ho.at_, ok_bind, alloc_eq, ok_bind]
  refine (self_loop (own_alloc _ _)).bind fun g H => ?_
  rw [Ok_ok]
  have hge : h.length ≤ (h.set o.coeffs none).length := by simp
  have hle := H.fr.le
  rw [List.length_set] at hle
  refine ⟨hle, fun q hq hqo => ?_, ?_, Or.inr hge, ?_, ho.deg⟩
  · rw [H.fr.eq q (by simpa using hq), List.getElem?_set_ne (Ne.symm hqo)]
  · show PolyStore.live g = PolyStore.live h
    have := live_del ho.at_; have := H.fr.live; omega
  · unfold lost
    rw [← ho.deg]
    exact H.at_

theorem assignObj_sim (h : Inv w S L) (k i : Nat) : Sim (World.assignObj O w k i) (vassign O S k i) fun w' S' => Inv w' S' L := by
  unfold World.assignObj vassign
  refine (obj_sim h k).bind fun o A ⟨h1, h2, h3⟩ => (obj_sim h i).bind fun t T ⟨h4, h5, h6⟩ => ?_
  by_cases hki : k = i
  · subst hki
    rw [h1] at h4
    cases h4
    rw [decide_eq_true rfl, if_pos rfl, ok_bind]
    obtain ⟨r, hr, U⟩ := assign_self (O := O) h6
    rw [hr, ok_bind]
    exact h.upd h1 h2 U
  · rw [decide_eq_false hki, if_neg hki]
    exact (assign_sim h3.at_ h6 fun e => hki (h.inj k i o t h1 h4 e.symm)).bind fun r P ⟨U, _⟩ => h.upd h1 h2 U

theorem temp_of {h : Heap α} {objs : List (Option Obj)} (H : Inv ⟨h, objs⟩ S L) {g : Heap α} {p : Nat} {b : List α}
    (hp : h.length ≤ p) (hb : g[p]? = some (some b)) : Temp ⟨g, objs⟩ p b :=
  ⟨hb, fun i o hi e => by
    obtain ⟨P, -, hP⟩ := H.back hi
    have : o.coeffs < h.length := lt_of hP.at_
    omega⟩

theorem set_live {k l : Nat} {A B P : CPoly α} (hk : S[k]? = some (some A)) (hl : S[l]? = some (some B)) :
    ∃ Q, (S.set k (some P))[l]? = some (some Q) := by
  by_cases h : l = k
  · subst h
    exact ⟨P, List.getElem?_set_self (List.getElem?_eq_some_iff.1 hk).1⟩
  · exact ⟨B, by rw [List.getElem?_set_ne (Ne.symm h), hl]⟩

theorem quotRem_sim (h : Inv w S L) (i j k l : Nat) :
    Sim (quotRem O inv w i j k l) (vquot O S i j k l) fun w' r => Inv w' r.1 (L + r.2) := by
  unfold quotRem vquot
  refine (obj_sim h i).bind fun a A ⟨a1, a2, a3⟩ => (obj_sim h j).bind fun b B ⟨b1, b2, b3⟩ => ?_
  refine (obj_sim h k).bind fun ok1 K ⟨k1, k2, k3⟩ => (obj_sim h l).bind fun ol Lv ⟨l1, l2, l3⟩ => ?_
  refine Sim.eqv (get_zero a3.at_) fun c0 => Sim.same fun zero => ?_
  refine (eqConst_sim b3 zero).bind fun bz z ⟨e1, F1⟩ => ?_
  rw [e1]
  cases z with
  | true => trivial
  | false =>
    simp only [Bool.false_eq_true, if_false]
    refine (eqConst_sim (a3.fr F1) zero).bind fun az z ⟨e2, F2⟩ => ?_
    have F := F1.trans F2
    have hI := h.fr F
    have ha := a3.fr F
    have hb := b3.fr F
    rw [e2, a3.deg, b3.deg]
    split
    · refine (psub_sim ha 0).bind fun t T Ft => ?_
      have hT := temp_of hI Ft.own.ge Ft.own.at_
      have hI2 := hI.fr Ft.own.fr
      refine (assign_world hI2 k2 Ft.has hT).bind fun w1 q ⟨I3, keep⟩ => ?_
      have T1 := keep _ _ hT
      unfold dtor
      rw [delete_eq T1.1, ok_bind]
      have I4 := I3.free T1
      conv => arg 1; rw [← bind_pure (World.assignObj O _ l i)]
      exact (assignObj_sim I4 l i).bind fun w2 S2 I5 => I5
    · refine (longDiv_sim ha hb zero).bind fun d s ⟨T, d1, d2⟩ => ?_
      have Tq := temp_of hI T.gep T.atp
      have Tr := temp_of hI T.geq T.atq
      have hI2 := hI.fr T.fr
      refine (assign_world hI2 k2 (T := s.1) ⟨T.atp, d1⟩ Tq).bind fun w1 q ⟨I3, keep⟩ => ?_
      obtain ⟨Q, hQ⟩ := set_live (P := q) k2 l2
      have Tr1 := keep _ _ Tr
      refine (assign_world I3 hQ (T := s.2) ⟨Tr1.1, d2⟩ Tr1).bind fun w2 r ⟨I4, keep2⟩ => ?_
      have Tr2 := keep2 _ _ Tr1
      have Tq2 := keep2 _ _ (keep _ _ Tq)
      unfold dtor
      rw [delete_eq Tr2.1, ok_bind]
      have Tq3 := Tq2.free T.ne Tr2
      rw [delete_eq Tq3.1, ok_bind]
      have I5 : Inv w2 ((S.set k (some q)).set l (some r)) (L + 1 + 1 + 1) := I4
      exact ((I5.free Tr2).free Tq3)

theorem step_sim (h : Inv w S L) (o : Op α) : Sim (step O inv w o) (vstep O inv S o) fun w' r => Inv w' r.1 (L + r.2) := by
  cases o with
  | create =>
    unfold step vstep
    rw [ctor_eq, ok_bind]
    exact h.push (n := 0) ⟨⟨(Fr.refl _).app _, le_rfl, by simp⟩, rfl⟩
  | const c => exact (const_sim _ c).bind fun r P F => h.push F
  | copy i => exact (obj_sim h i).bind fun a A ⟨_, _, a3⟩ => (copy_sim a3).bind fun r P F => h.push F
  | assign i j =>
    show Sim (World.assignObj O w i j) (vassign O S i j >>= fun S => ok (S, 0)) _
    conv => arg 1; rw [← bind_pure (World.assignObj O w i j)]
    exact (assignObj_sim h i j).bind fun w2 S2 I => I
  | add i j => exact (obj_sim h i).bind fun a A ⟨_, _, a3⟩ => (obj_sim h j).bind fun b B ⟨_, _, b3⟩ =>
      (add_sim a3 b3).bind fun r P F => h.push F
  | sub i j => exact (obj_sim h i).bind fun a A ⟨_, _, a3⟩ => (obj_sim h j).bind fun b B ⟨_, _, b3⟩ =>
      (sub_sim a3 b3).bind fun r P F => h.push F
  | neg i => exact (obj_sim h i).bind fun a A ⟨_, _, a3⟩ => (neg_sim a3).bind fun r P F => h.push F
  | mul i j => exact (obj_sim h i).bind fun a A ⟨_, _, a3⟩ => (obj_sim h j).bind fun b B ⟨_, _, b3⟩ =>
      (mul_sim a3 b3).bind fun r P F => h.push F
  | smul i c => exact (obj_sim h i).bind fun a A ⟨_, _, a3⟩ => (smul_sim a3 c).bind fun r P F => h.push F
  | set i pos c => exact (obj_sim h i).bind fun a A ⟨a1, a2, a3⟩ => (setCoeff_sim a3 pos c).bind fun r P U => h.upd a1 a2 U
  | divmod i j k l => exact quotRem_sim h i j k l
  | destroy i =>
    refine (obj_sim h i).bind fun a A ⟨a1, a2, a3⟩ => ?_
    unfold dtor
    rw [delete_eq a3.at_, ok_bind]
    have hio := (List.getElem?_eq_some_iff.1 a1).1
    have hiS := (List.getElem?_eq_some_iff.1 a2).1
    refine ⟨by simp [h.len], fun j Q hj => ?_, fun j hj => ?_, fun j k o o' hj hk e => ?_, ?_⟩
    · by_cases hji : j = i
      · subst hji
        simp only at hj
        rw [List.getElem?_set_self hiS] at hj
        cases hj
      · simp only at hj
        rw [List.getElem?_set_ne (Ne.symm hji)] at hj
        obtain ⟨o', h1, h2⟩ := h.obj j Q hj
        refine ⟨o', by simp only; rw [List.getElem?_set_ne (Ne.symm hji), h1], ?_, h2.deg⟩
        simp only
        rw [List.getElem?_set_ne (fun e => hji (h.inj j i o' a h1 a1 e.symm))]
        exact h2.at_
    · by_cases hji : j = i
      · subst hji
        simp only
        rw [List.getElem?_set_self hio]
      · simp only at hj ⊢
        rw [List.getElem?_set_ne (Ne.symm hji)] at hj
        rw [List.getElem?_set_ne (Ne.symm hji), h.non j hj]
    · simp only at hj hk
      by_cases hji : j = i
      · subst hji
        rw [List.getElem?_set_self hio] at hj; cases hj
      by_cases hki : k = i
      · subst hki
        rw [List.getElem?_set_self hio] at hk; cases hk
      rw [List.getElem?_set_ne (Ne.symm hji)] at hj
      rw [List.getElem?_set_ne (Ne.symm hki)] at hk
      exact h.inj j k o o' hj hk e
    · have := live_del a3.at_
      have := countP_set_none a2
      have := h.live
      show PolyStore.live (w.heap.set a.coeffs none) = (S.set i none).countP Option.isSome + (L + 0)
      omega

theorem run_sim : ∀ (ops : List (Op α)) {w : World α} {S : Vals α} {L : Nat}, Inv w S L →
    Sim (run O inv ops w) (vrun O inv ops S L) fun w' r => Inv w' r.1 r.2
  | [], _, _, _, h => h
  | o :: ops, _, _, _, h => by
    unfold run vrun
    exact (step_sim h o).bind fun w' r h' => run_sim ops h'

theorem inv_empty : Inv (α := α) ⟨[], []⟩ [] 0 := ⟨rfl, by simp, by simp, by simp, rfl⟩

end PolyStore
end Spffl
