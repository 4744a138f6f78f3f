/-
Proofs about polynomials in several variables: the list of terms against Mathlib's `MvPolynomial`.
-/
import Verif.Model.MvPoly
import Verif.Proof.CPoly
import Mathlib.Algebra.MvPolynomial.PDeriv
import Mathlib.RingTheory.MvPolynomial.Homogeneous

namespace Spffl
open Res MvPolynomial
namespace MvPoly

/-- The list has every monomial at most once, with the coefficient it has in F, and F has no other monomials. -/
def Den {n : ℕ} {R : Type} [CommRing R] (L : List ((Fin n →₀ ℕ) × R)) (F : MvPolynomial (Fin n) R) : Prop :=
  (L.map Prod.fst).Nodup ∧ (∀ t ∈ L, F.coeff t.1 = t.2) ∧ ∀ k, k ∉ L.map Prod.fst → F.coeff k = 0

/-- The exponents, none of them B or more. -/
def Ex {n : ℕ} (B : ℕ) (l : List Int) (e : Fin n →₀ ℕ) : Prop := l = List.ofFn (fun i => (e i : ℤ)) ∧ ∀ i, e i < B

/-- A term of the program and its coefficient and monomial. -/
def MRep {α R : Type} {n : ℕ} (rep : α → R → Prop) (B : ℕ) (m : Mono α) (t : (Fin n →₀ ℕ) × R) : Prop := rep m.coeff t.2 ∧ Ex B m.expts t.1

/-- The terms of the program are those of F. -/
def Rep {α R : Type} [CommRing R] {n : ℕ} (rep : α → R → Prop) (B : ℕ) (p : List (Mono α)) (F : MvPolynomial (Fin n) R) : Prop :=
  ∃ L, List.Forall₂ (MRep rep B) p L ∧ Den L F

section den
variable {n : ℕ} {R : Type} [CommRing R] {L : List ((Fin n →₀ ℕ) × R)} {F G : MvPolynomial (Fin n) R}

theorem den_nil : Den ([] : List ((Fin n →₀ ℕ) × R)) 0 := ⟨List.nodup_nil, by simp, by simp⟩

theorem Den.unique (h : Den L F) (h' : Den L G) : F = G := by
  ext k
  by_cases hk : k ∈ L.map Prod.fst
  · obtain ⟨t, ht, rfl⟩ := List.mem_map.1 hk
    rw [h.2.1 t ht, h'.2.1 t ht]
  · rw [h.2.2 k hk, h'.2.2 k hk]

theorem den_cons {k : Fin n →₀ ℕ} {c : R} (hk : k ∉ L.map Prod.fst) (h : Den L F) : Den ((k, c) :: L) (monomial k c + F) := by
  classical
  refine ⟨List.nodup_cons.2 ⟨hk, h.1⟩, fun t ht => ?_, fun d hd => ?_⟩
  · rw [coeff_add, coeff_monomial]
    rcases List.mem_cons.1 ht with rfl | ht
    · rw [if_pos rfl, h.2.2 _ hk, add_zero]
    · rw [if_neg (fun e : k = t.1 => hk (by rw [e]; exact List.mem_map_of_mem ht)), zero_add, h.2.1 t ht]
  · rw [List.map_cons, List.mem_cons, not_or] at hd
    rw [coeff_add, coeff_monomial, if_neg (fun e => hd.1 e.symm), zero_add, h.2.2 d hd.2]

theorem den_append {k : Fin n →₀ ℕ} {c : R} (hk : k ∉ L.map Prod.fst) (h : Den L F) : Den (L ++ [(k, c)]) (F + monomial k c) := by
  have h1 := den_cons (c := c) hk h
  have hp : (L ++ [(k, c)]).Perm ((k, c) :: L) := List.perm_append_singleton _ _
  refine ⟨(hp.map _).nodup_iff.2 h1.1, fun t ht => ?_, fun d hd => ?_⟩
  · rw [add_comm]; exact h1.2.1 t (hp.mem_iff.1 ht)
  · rw [add_comm]; exact h1.2.2 d (fun h' => hd ((hp.map _).mem_iff.2 h'))

theorem den_sum (L : List ((Fin n →₀ ℕ) × R)) (h : (L.map Prod.fst).Nodup) : Den L (L.map fun t => monomial t.1 t.2).sum := by
  induction L with
  | nil => exact den_nil
  | cons t L ih =>
    rw [List.map_cons, List.nodup_cons] at h
    rw [List.map_cons, List.sum_cons]
    exact den_cons h.1 (ih h.2)

theorem Den.sum (h : Den L F) : F = (L.map fun t => monomial t.1 t.2).sum := h.unique (den_sum L h.1)

theorem den_set {j : ℕ} {k : Fin n →₀ ℕ} {a c : R} (hj : j < L.length) (e : L[j] = (k, a)) (h : Den L F) :
    Den (L.set j (k, a + c)) (F + monomial k c) := by
  classical
  have hkeys : (L.set j (k, a + c)).map Prod.fst = L.map Prod.fst := by
    rw [List.map_set]
    refine List.ext_getElem (by simp) fun i h1 h2 => ?_
    rw [List.getElem_set]
    split
    · next hij => subst hij; simp [e]
    · rfl
  refine ⟨hkeys ▸ h.1, fun t ht => ?_, fun d hd => ?_⟩
  · obtain ⟨i, hi, rfl⟩ := List.getElem_of_mem ht
    rw [coeff_add, coeff_monomial, List.getElem_set]
    split
    · next hij =>
      subst hij
      have := h.2.1 (L[j]) (List.getElem_mem hj)
      rw [e] at this
      rw [if_pos rfl]
      show coeff k F + c = a + c
      rw [this]
    · next hij =>
      have hi' : i < L.length := by simpa using hi
      rw [if_neg, add_zero]
      · exact h.2.1 _ (List.getElem_mem hi')
      · intro hk
        have h1 : (L.map Prod.fst)[j]'(by simpa using hj) = (L.map Prod.fst)[i]'(by simpa using hi') := by simp [e, hk]
        exact hij ((List.Nodup.getElem_inj_iff h.1).1 h1)
  · rw [hkeys] at hd
    rw [coeff_add, coeff_monomial, if_neg, add_zero, h.2.2 d hd]
    rintro rfl
    apply hd
    have : (L[j]).1 ∈ L.map Prod.fst := List.mem_map_of_mem (List.getElem_mem hj)
    rwa [e] at this

theorem Den.filter [DecidableEq R] (h : Den L F) : Den (L.filter fun t => t.2 ≠ 0) F := by
  have hs : ((L.filter fun t => t.2 ≠ 0).map Prod.fst).Sublist (L.map Prod.fst) := List.filter_sublist.map _
  refine ⟨h.1.sublist hs, fun t ht => h.2.1 t (List.mem_filter.1 ht).1, fun k hk => ?_⟩
  by_cases hk' : k ∈ L.map Prod.fst
  · obtain ⟨t, ht, rfl⟩ := List.mem_map.1 hk'
    rw [h.2.1 t ht]
    by_contra h0
    exact hk (List.mem_map_of_mem (List.mem_filter.2 ⟨ht, by simpa using h0⟩))
  · exact h.2.2 k hk'

end den

section expts
variable {n : ℕ} {B B' : ℕ} {l l' : List Int} {e e' : Fin n →₀ ℕ}

theorem Ex.len (h : Ex B l e) : l.length = n := by rw [h.1, List.length_ofFn]

theorem Ex.inj (h : Ex B l e) (h' : Ex B' l e') : e = e' := by
  have := List.ofFn_injective (h.1.symm.trans h'.1)
  ext i
  exact_mod_cast congrFun this i

theorem Ex.eq (h : Ex B l e) (h' : Ex B' l' e) : l = l' := h.1.trans h'.1.symm

theorem Ex.mono (h : Ex B l e) (hB : B ≤ B') : Ex B' l e := ⟨h.1, fun i => (h.2 i).trans_le hB⟩

theorem sameExpts_iff : ∀ {xs ys : List Int}, xs.length = ys.length → (sameExpts xs ys = true ↔ xs = ys)
  | [], [], _ => by simp [sameExpts]
  | x :: xs, y :: ys, h => by
    have ih := sameExpts_iff (xs := xs) (ys := ys) (by simpa using h)
    rw [sameExpts]
    split
    · next hxy => rw [ih, hxy]; simp
    · next hxy => simp [hxy]

theorem addExpts_eq : ∀ {xs ys : List Int}, xs.length = ys.length → (∀ i (h : i < xs.length) (h' : i < ys.length), InInt (xs[i] + ys[i])) →
    addExpts xs ys = ok (List.zipWith (· + ·) xs ys)
  | [], [], _, _ => rfl
  | x :: xs, y :: ys, h, hI => by
    have ih := addExpts_eq (xs := xs) (ys := ys) (by simpa using h) fun i h1 h2 => hI (i + 1) (by simpa using h1) (by simpa using h2)
    have h0 : InInt (x + y) := hI 0 (by simp) (by simp)
    rw [addExpts, iadd, chk_ok h0, ok_bind, ih, ok_bind]
    rfl

theorem addExpts_ok (h : Ex B l e) (h' : Ex B' l' e') (hB : B + B' ≤ 2 ^ 31) : ∃ r, addExpts l l' = ok r ∧ Ex (B + B') r (e + e') := by
  have hb : ∀ i, e i + e' i < B + B' := fun i => Nat.add_lt_add (h.2 i) (h'.2 i)
  refine ⟨_, addExpts_eq (h.len.trans h'.len.symm) ?_, ?_, hb⟩
  · intro i h1 h2
    have hi : i < n := by rw [h.len] at h1; exact h1
    have := hb ⟨i, hi⟩
    simp only [h.1, h'.1, List.getElem_ofFn]
    unfold InInt
    omega
  · rw [h.1, h'.1]
    refine List.ext_getElem (by simp) fun i h1 h2 => ?_
    simp

end expts

section ops
variable {α R : Type} [CommRing R] {rep : α → R → Prop} {ord : R → R → Prop} {O : CoefOps α} {U : Prop} (H : CoefRef U O rep ord)
variable {n : ℕ} {B B' : ℕ} {p q : List (Mono α)} {F G : MvPolynomial (Fin n) R}

omit [CommRing R] in
theorem find_ok {Lq : List ((Fin n →₀ ℕ) × R)} (hq : List.Forall₂ (MRep rep B) q Lq) {m : Mono α} {k : Fin n →₀ ℕ} (hm : Ex B' m.expts k) :
    ∃ r, find q m = ok r ∧ match r with
      | none => k ∉ Lq.map Prod.fst
      | some j => ∃ h : j < Lq.length, (Lq[j]).1 = k := by
  induction hq with
  | nil => exact ⟨none, rfl, by simp⟩
  | @cons x t q Lq hx _ ih =>
    obtain ⟨r, er, hr⟩ := ih
    have hl : x.expts.length = m.expts.length := hx.2.len.trans hm.len.symm
    rw [find, expts_match, if_neg (by simpa using hl), ok_bind]
    by_cases hs : sameExpts x.expts m.expts = true
    · rw [if_pos hs]
      refine ⟨some 0, rfl, by simp, ?_⟩
      rw [sameExpts_iff hl] at hs
      have hm' := hm
      rw [← hs] at hm'
      exact hx.2.inj hm'
    · rw [if_neg hs, er, ok_bind]
      refine ⟨_, rfl, ?_⟩
      cases r with
      | none =>
        show k ∉ (t :: Lq).map Prod.fst
        rw [List.map_cons, List.mem_cons, not_or]
        refine ⟨fun e => hs ((sameExpts_iff hl).2 (hx.2.eq (e ▸ hm))), hr⟩
      | some j =>
        obtain ⟨h1, h2⟩ := hr
        exact ⟨by simpa using h1, by simpa using h2⟩

include H

theorem stripLoop_sat [DecidableEq R] {L : List ((Fin n →₀ ℕ) × R)} {zero : α} (hz : rep zero 0)
    (hp : List.Forall₂ (fun m t => rep m.coeff t.2 ∧ (t.2 ≠ 0 → Ex B m.expts t.1)) p L) :
    (stripLoop O zero p).Sat U fun r => List.Forall₂ (MRep rep B) r (L.filter fun t => t.2 ≠ 0) := by
  induction hp with
  | nil => exact (Sat_ok _ _).2 List.Forall₂.nil
  | @cons m t p L hm _ ih =>
    rw [stripLoop]
    refine Sat.bind (H.eq hm.1 hz) fun b hb => ?_
    by_cases h0 : t.2 = 0
    · rw [if_pos (hb.2 h0), List.filter_cons_of_neg (by simpa using h0)]
      exact ih
    · rw [if_neg (fun h => h0 (hb.1 h)), List.filter_cons_of_pos (by simpa using h0)]
      exact Sat.bind ih fun r hr => (Sat_ok _ _).2 (List.Forall₂.cons ⟨hm.1, hm.2 h0⟩ hr)

theorem strip_sat [DecidableEq R] {L : List ((Fin n →₀ ℕ) × R)}
    (hp : List.Forall₂ (fun m t => rep m.coeff t.2 ∧ (t.2 ≠ 0 → Ex B m.expts t.1)) p L) :
    (strip O p).Sat U fun r => List.Forall₂ (MRep rep B) r (L.filter fun t => t.2 ≠ 0) := by
  cases hp with
  | nil => exact (Sat_ok _ _).2 List.Forall₂.nil
  | cons hm h =>
    rw [strip]
    refine Sat.bind (H.sub hm.1 hm.1) fun z hz => ?_
    rw [sub_self] at hz
    exact stripLoop_sat H hz (List.Forall₂.cons hm h)

theorem collect_sat {L : List ((Fin n →₀ ℕ) × R)} (hp : List.Forall₂ (MRep rep B) p L) (hF : Den L F) {m : Mono α} {k : Fin n →₀ ℕ} {c : R}
    (hm : MRep rep B m (k, c)) : (collect O p m).Sat U fun r => ∃ L', List.Forall₂ (MRep rep B) r L' ∧ Den L' (F + monomial k c) ∧
      ∀ d, d ∈ L'.map Prod.fst ↔ d ∈ L.map Prod.fst ∨ d = k := by
  obtain ⟨r, er, hr⟩ := find_ok hp hm.2
  rw [collect, er, ok_bind]
  cases r with
  | none =>
    refine (Sat_ok _ _).2 ⟨L ++ [(k, c)], ?_, den_append hr hF, fun d => by simp⟩
    exact List.rel_append hp (List.Forall₂.cons hm List.Forall₂.nil)
  | some j =>
    obtain ⟨hj, ej⟩ := hr
    have hj' : j < p.length := hp.length_eq ▸ hj
    have ht : MRep rep B p[j] L[j] := hp.get hj' hj
    have eL : L[j] = (k, (L[j]).2) := Prod.ext ej rfl
    simp only [rd_ok hj', ok_bind]
    refine Sat.bind (H.add ht.1 hm.1) fun s hs => ?_
    rw [wr_ok hj']
    refine (Sat_ok _ _).2 ⟨L.set j (k, (L[j]).2 + c), ?_, den_set hj eL hF, fun d => ?_⟩
    · rw [List.forall₂_iff_get]
      refine ⟨by simp [hp.length_eq], fun i h1 h2 => ?_⟩
      simp only [List.get_eq_getElem, List.getElem_set]
      split
      · exact ⟨hs, by have := ht.2; rwa [ej] at this⟩
      · exact hp.get (by simpa using h1) (by simpa using h2)
    · have hk : k ∈ L.map Prod.fst := by
        have : (L[j]).1 ∈ L.map Prod.fst := List.mem_map_of_mem (List.getElem_mem hj)
        rwa [ej] at this
      have hkeys : (L.set j (k, (L[j]).2 + c)).map Prod.fst = L.map Prod.fst := by
        rw [List.map_set]
        refine List.ext_getElem (by simp) fun i h1 h2 => ?_
        rw [List.getElem_set]
        split
        · next hij => subst hij; simp [ej]
        · rfl
      rw [hkeys]
      constructor
      · exact Or.inl
      · rintro (h | rfl)
        · exact h
        · exact hk

theorem mulRow_sat {B1 B2 : ℕ} (hB : B1 + B2 ≤ 2 ^ 31) {a : Mono α} {t : (Fin n →₀ ℕ) × R} (ha : MRep rep B1 a t) {Lq : List ((Fin n →₀ ℕ) × R)}
    (hq : List.Forall₂ (MRep rep B2) q Lq) : ∀ {p : List (Mono α)} {L : List ((Fin n →₀ ℕ) × R)} {F : MvPolynomial (Fin n) R},
    List.Forall₂ (MRep rep (B1 + B2)) p L → Den L F → (mulRow O a q p).Sat U fun r => ∃ L', List.Forall₂ (MRep rep (B1 + B2)) r L' ∧
      Den L' (F + monomial t.1 t.2 * (Lq.map fun u => monomial u.1 u.2).sum) ∧
      ∀ d, d ∈ L'.map Prod.fst ↔ d ∈ L.map Prod.fst ∨ ∃ u ∈ Lq, d = t.1 + u.1 := by
  induction hq with
  | nil =>
    intro p L F hp hF
    exact (Sat_ok _ _).2 ⟨L, hp, by simpa using hF, fun d => by simp⟩
  | @cons b u q Lq hb _ ih =>
    intro p L F hp hF
    rw [mulRow, monoMul, if_neg (by simpa using ha.2.len.trans hb.2.len.symm)]
    obtain ⟨e, ee, he⟩ := addExpts_ok ha.2 hb.2 hB
    refine Sat.bind (P := fun m => MRep rep (B1 + B2) m (t.1 + u.1, t.2 * u.2)) ?_ fun m hm => ?_
    · refine Sat.bind (H.mul ha.1 hb.1) fun c hc => ?_
      rw [ee, ok_bind]
      exact (Sat_ok _ _).2 ⟨hc, he⟩
    · refine Sat.bind (collect_sat H hp hF hm) fun r ⟨L1, h1, h2, h3⟩ => ?_
      refine (ih h1 h2).mono fun r ⟨L2, k1, k2, k3⟩ => ⟨L2, k1, ?_, fun d => ?_⟩
      · rw [List.map_cons, List.sum_cons, mul_add, monomial_mul, ← add_assoc]
        exact k2
      · rw [k3, h3]
        simp only [List.mem_cons, exists_eq_or_imp, or_assoc]

theorem mulLoop_sat {B1 B2 : ℕ} (hB : B1 + B2 ≤ 2 ^ 31) {Lp Lq : List ((Fin n →₀ ℕ) × R)} (hp : List.Forall₂ (MRep rep B1) p Lp)
    (hq : List.Forall₂ (MRep rep B2) q Lq) : ∀ {r : List (Mono α)} {L : List ((Fin n →₀ ℕ) × R)} {F : MvPolynomial (Fin n) R},
    List.Forall₂ (MRep rep (B1 + B2)) r L → Den L F → (mulLoop O q p r).Sat U fun r => ∃ L', List.Forall₂ (MRep rep (B1 + B2)) r L' ∧
      Den L' (F + (Lp.map fun u => monomial u.1 u.2).sum * (Lq.map fun u => monomial u.1 u.2).sum) ∧
      ∀ d, d ∈ L'.map Prod.fst ↔ d ∈ L.map Prod.fst ∨ ∃ t ∈ Lp, ∃ u ∈ Lq, d = t.1 + u.1 := by
  induction hp with
  | nil =>
    intro r L F hr hF
    exact (Sat_ok _ _).2 ⟨L, hr, by simpa using hF, fun d => by simp⟩
  | @cons a t p Lp ha _ ih =>
    intro r L F hr hF
    rw [mulLoop]
    refine Sat.bind (mulRow_sat H hB ha hq hr hF) fun r ⟨L1, h1, h2, h3⟩ => ?_
    refine (ih h1 h2).mono fun r ⟨L2, k1, k2, k3⟩ => ⟨L2, k1, ?_, fun d => ?_⟩
    · rw [List.map_cons, List.sum_cons, add_mul, ← add_assoc]
      exact k2
    · rw [k3, h3]
      simp only [List.mem_cons, exists_eq_or_imp, or_assoc]

/-- The product, and its terms: one for every sum of a monomial of F and one of G. -/
theorem mul_sat {B1 B2 : ℕ} (hB : B1 + B2 ≤ 2 ^ 31) {Lp Lq : List ((Fin n →₀ ℕ) × R)} (hp : List.Forall₂ (MRep rep B1) p Lp)
    (hF : Den Lp F) (hq : List.Forall₂ (MRep rep B2) q Lq) (hG : Den Lq G) :
    (mul O p q).Sat U fun r => ∃ L', List.Forall₂ (MRep rep (B1 + B2)) r L' ∧ Den L' (F * G) ∧
      ∀ d, d ∈ L'.map Prod.fst ↔ ∃ t ∈ Lp, ∃ u ∈ Lq, d = t.1 + u.1 := by
  have hl : (mulLoop O q p []).Sat U fun r => ∃ L', List.Forall₂ (MRep rep (B1 + B2)) r L' ∧ Den L' (F * G) ∧
      ∀ d, d ∈ L'.map Prod.fst ↔ ∃ t ∈ Lp, ∃ u ∈ Lq, d = t.1 + u.1 := by
    refine (mulLoop_sat H hB hp hq List.Forall₂.nil den_nil).mono fun r ⟨L', h1, h2, h3⟩ => ⟨L', h1, ?_, fun d => ?_⟩
    · rw [hF.sum, hG.sum]
      simpa using h2
    · rw [h3]; simp
  cases hp with
  | nil =>
    have : F = 0 := hF.unique den_nil
    refine (Sat_ok _ _).2 ⟨[], List.Forall₂.nil, by rw [this, zero_mul]; exact den_nil, fun d => by simp⟩
  | cons h1 h2 =>
    cases hq with
    | nil =>
      have : G = 0 := hG.unique den_nil
      exact (Sat_ok _ _).2 ⟨[], List.Forall₂.nil, by rw [this, mul_zero]; exact den_nil, fun d => by simp⟩
    | cons h3 h4 => exact hl

theorem neg_sat {L : List ((Fin n →₀ ℕ) × R)} (hp : List.Forall₂ (MRep rep B) p L) :
    (neg O p).Sat U fun r => List.Forall₂ (MRep rep B) r (L.map fun t => (t.1, -t.2)) := by
  induction hp with
  | nil => exact (Sat_ok _ _).2 List.Forall₂.nil
  | @cons m t p L hm _ ih =>
    rw [neg]
    refine Sat.bind (H.neg hm.1) fun c hc => Sat.bind ih fun r hr => (Sat_ok _ _).2 ?_
    exact List.Forall₂.cons ⟨hc, hm.2⟩ hr

omit H in
theorem Den.neg {L : List ((Fin n →₀ ℕ) × R)} (h : Den L F) : Den (L.map fun t => (t.1, -t.2)) (-F) := by
  have hk : (L.map fun t => (t.1, -t.2)).map Prod.fst = L.map Prod.fst := by simp [Function.comp_def]
  refine ⟨hk ▸ h.1, fun t ht => ?_, fun k hk' => ?_⟩
  · obtain ⟨u, hu, rfl⟩ := List.mem_map.1 ht
    rw [coeff_neg, h.2.1 u hu]
  · rw [hk] at hk'
    rw [coeff_neg, h.2.2 k hk', neg_zero]

omit [CommRing R] H in
theorem unmarked_ok {Lq : List ((Fin n →₀ ℕ) × R)} (hq : List.Forall₂ (MRep rep B) q Lq) (D : List (Fin n →₀ ℕ)) :
    List.Forall₂ (MRep rep B) (unmarked q (Lq.map fun t => decide (t.1 ∈ D))) (Lq.filter fun t => t.1 ∉ D) := by
  induction hq with
  | nil => exact List.Forall₂.nil
  | @cons m t q Lq hm _ ih =>
    rw [List.map_cons, unmarked]
    by_cases h : t.1 ∈ D
    · rw [if_pos (by simpa using h), List.filter_cons_of_neg (by simpa using h)]
      exact ih
    · rw [if_neg (by simpa using h), List.filter_cons_of_pos (by simpa using h)]
      exact List.Forall₂.cons hm ih

omit [CommRing R] H in
theorem marks_set {Lq : List ((Fin n →₀ ℕ) × R)} (hn : (Lq.map Prod.fst).Nodup) (D : List (Fin n →₀ ℕ)) {j : ℕ} (hj : j < Lq.length) :
    (Lq.map fun t => decide (t.1 ∈ D)).set j true = Lq.map fun t => decide (t.1 ∈ D ++ [(Lq[j]).1]) := by
  refine List.ext_getElem (by simp) fun i h1 h2 => ?_
  have hi : i < Lq.length := by simpa using h1
  rw [List.getElem_set]
  split
  · next h => subst h; simp
  · next h =>
    have : (Lq[i]).1 ≠ (Lq[j]).1 := by
      intro e
      have h1 : (Lq.map Prod.fst)[j]'(by simpa using hj) = (Lq.map Prod.fst)[i]'(by simpa using hi) := by simp [e]
      exact h ((List.Nodup.getElem_inj_iff hn).1 h1)
    simp [this]

omit [CommRing R] H in
theorem marks_same {Lq : List ((Fin n →₀ ℕ) × R)} (D : List (Fin n →₀ ℕ)) {k : Fin n →₀ ℕ} (hk : k ∉ Lq.map Prod.fst) :
    (Lq.map fun t => decide (t.1 ∈ D)) = Lq.map fun t => decide (t.1 ∈ D ++ [k]) := by
  refine List.map_congr_left fun t ht => ?_
  have : t.1 ≠ k := by rintro rfl; exact hk (List.mem_map_of_mem ht)
  simp [this]

/-- The terms of the sum with monomials in D. -/
structure Part (F G : MvPolynomial (Fin n) R) (C : Prop) (D : List (Fin n →₀ ℕ)) (S : List ((Fin n →₀ ℕ) × R)) : Prop where
  nodup : (S.map Prod.fst).Nodup
  sub : ∀ k ∈ S.map Prod.fst, k ∈ D
  val : ∀ t ∈ S, coeff t.1 (F + G) = t.2
  zero : ∀ k ∈ D, k ∉ S.map Prod.fst → coeff k (F + G) = 0
  canon : C → ∀ t ∈ S, t.2 ≠ 0

omit H in
theorem Part.push {C : Prop} {D : List (Fin n →₀ ℕ)} {S : List ((Fin n →₀ ℕ) × R)} (h : Part F G C D S) {k : Fin n →₀ ℕ} {c : R} (hk : k ∉ D)
    (hc : coeff k (F + G) = c) (h0 : C → c ≠ 0) : Part F G C (D ++ [k]) (S ++ [(k, c)]) := by
  refine ⟨?_, ?_, ?_, ?_, ?_⟩
  · rw [List.map_append, List.nodup_append]
    refine ⟨h.nodup, by simp, ?_⟩
    intro a ha b hb e
    simp only [List.map_cons, List.map_nil, List.mem_singleton] at hb
    exact hk (by rw [← hb, ← e]; exact h.sub a ha)
  · intro d hd
    simp only [List.map_append, List.map_cons, List.map_nil, List.mem_append, List.mem_singleton] at hd ⊢
    exact hd.imp (h.sub d) id
  · intro t ht
    rcases List.mem_append.1 ht with ht | ht
    · exact h.val t ht
    · rw [List.mem_singleton.1 ht]; exact hc
  · intro d hd hn
    simp only [List.map_append, List.map_cons, List.map_nil, List.mem_append, List.mem_singleton, not_or] at hd hn
    exact h.zero d (hd.resolve_right hn.2) hn.1
  · intro hC t ht
    rcases List.mem_append.1 ht with ht | ht
    · exact h.canon hC t ht
    · rw [List.mem_singleton.1 ht]; exact h0 hC

omit H in
theorem Part.skip {C : Prop} {D : List (Fin n →₀ ℕ)} {S : List ((Fin n →₀ ℕ) × R)} (h : Part F G C D S) {k : Fin n →₀ ℕ}
    (hc : coeff k (F + G) = 0) : Part F G C (D ++ [k]) S := by
  refine ⟨h.nodup, fun d hd => List.mem_append_left _ (h.sub d hd), h.val, fun d hd hn => ?_, h.canon⟩
  rcases List.mem_append.1 hd with hd | hd
  · exact h.zero d hd hn
  · rw [List.mem_singleton.1 hd]; exact hc

theorem addLoop_sat {zero : α} (hz : rep zero 0) {Lq : List ((Fin n →₀ ℕ) × R)} (hq : List.Forall₂ (MRep rep B) q Lq) (hG : Den Lq G) (C : Prop)
    {L : List ((Fin n →₀ ℕ) × R)} (hp : List.Forall₂ (MRep rep B) p L) : ∀ {D : List (Fin n →₀ ℕ)} {S : List ((Fin n →₀ ℕ) × R)} {s : List (Mono α)},
    (∀ t ∈ L, coeff t.1 F = t.2) → (D ++ L.map Prod.fst).Nodup → (C → ∀ t ∈ L, t.2 ≠ 0) → List.Forall₂ (MRep rep B) s S → Part F G C D S →
    (addLoop O zero q p (s, Lq.map fun t => decide (t.1 ∈ D))).Sat U fun r => ∃ S', List.Forall₂ (MRep rep B) r.1 S' ∧
      Part F G C (D ++ L.map Prod.fst) S' ∧ r.2 = Lq.map fun t => decide (t.1 ∈ D ++ L.map Prod.fst) := by
  induction hp with
  | nil =>
    intro D S s _ _ _ hs hP
    exact (Sat_ok _ _).2 ⟨S, hs, by simpa using hP, by simp⟩
  | @cons m t p L hm _ ih =>
    intro D S s hF hn hC hs hP
    have hkD : t.1 ∉ D := by
      intro h
      rw [List.nodup_append] at hn
      exact hn.2.2 _ h _ (by simp) rfl
    have eD : D ++ (t :: L).map Prod.fst = (D ++ [t.1]) ++ L.map Prod.fst := by simp
    have hFt := hF t List.mem_cons_self
    have hF' : ∀ u ∈ L, coeff u.1 F = u.2 := fun u hu => hF u (List.mem_cons_of_mem _ hu)
    have hC' : C → ∀ u ∈ L, u.2 ≠ 0 := fun c u hu => hC c u (List.mem_cons_of_mem _ hu)
    rw [eD] at hn ⊢
    obtain ⟨r, er, hr⟩ := find_ok hq hm.2
    rw [addLoop, er, ok_bind]
    cases r with
    | none =>
      have hG0 : coeff t.1 G = 0 := hG.2.2 _ hr
      simp only [marks_same D hr]
      refine ih hF' hn hC' (List.rel_append hs (List.Forall₂.cons hm List.Forall₂.nil)) (hP.push hkD ?_ fun c => hC c t List.mem_cons_self)
      rw [coeff_add, hFt, hG0, add_zero]
    | some j =>
      obtain ⟨hj, ej⟩ := hr
      have hj' : j < q.length := hq.length_eq ▸ hj
      have hu : MRep rep B q[j] Lq[j] := hq.get hj' hj
      have hGj : coeff t.1 G = (Lq[j]).2 := by rw [← ej]; exact hG.2.1 _ (List.getElem_mem hj)
      have hsum : coeff t.1 (F + G) = t.2 + (Lq[j]).2 := by rw [coeff_add, hFt, hGj]
      simp only [wr_ok (show j < (Lq.map fun t => decide (t.1 ∈ D)).length by simpa using hj), marks_set hG.1 D hj, ej, ok_bind, rd_ok hj']
      refine Sat.bind (H.add hm.1 hu.1) fun c hc => ?_
      refine Sat.bind (H.eq hc hz) fun b hb => ?_
      by_cases h0 : t.2 + (Lq[j]).2 = 0
      · rw [if_pos (hb.2 h0)]
        exact ih hF' hn hC' hs (hP.skip (hsum.trans h0))
      · rw [if_neg (fun h => h0 (hb.1 h))]
        have hm' : MRep rep B ⟨c, m.expts⟩ (t.1, t.2 + (Lq[j]).2) := ⟨hc, hm.2⟩
        exact ih hF' hn hC' (List.rel_append hs (List.Forall₂.cons hm' List.Forall₂.nil)) (hP.push hkD hsum fun _ => h0)

theorem add_sat {Lp Lq : List ((Fin n →₀ ℕ) × R)} (hp : List.Forall₂ (MRep rep B) p Lp) (hF : Den Lp F)
    (hq : List.Forall₂ (MRep rep B) q Lq) (hG : Den Lq G) : (add O p q).Sat U fun r => ∃ L', List.Forall₂ (MRep rep B) r L' ∧ Den L' (F + G) ∧
      ((∀ t ∈ Lp, t.2 ≠ 0) → (∀ t ∈ Lq, t.2 ≠ 0) → ∀ t ∈ L', t.2 ≠ 0) := by
  cases hp with
  | nil =>
    rw [add, show F = 0 from hF.unique den_nil, zero_add]
    exact (Sat_ok _ _).2 ⟨Lq, hq, hG, fun _ h => h⟩
  | @cons m t p Lp hm hp =>
    cases hq with
    | nil =>
      rw [show G = 0 from hG.unique den_nil, add_zero]
      exact (Sat_ok _ _).2 ⟨_, List.Forall₂.cons hm hp, hF, fun h _ => h⟩
    | @cons m' t' q Lq hm' hq =>
      rw [add]
      · refine Sat.bind (H.sub hm.1 hm.1) fun z hz => ?_
        rw [sub_self] at hz
        have hp' := List.Forall₂.cons hm hp
        have hq' := List.Forall₂.cons hm' hq
        have h := addLoop_sat (F := F) H hz hq' hG (∀ u ∈ t :: Lp, u.2 ≠ 0) hp' (D := []) (S := []) (s := []) hF.2.1 (by simpa using hF.1) (fun h => h)
          List.Forall₂.nil ⟨by simp, by simp, by simp, by simp, by simp⟩
        rw [show ((t' :: Lq).map fun t => decide (t.1 ∈ ([] : List (Fin n →₀ ℕ)))) = List.replicate (m' :: q).length false by
          rw [hq'.length_eq]
          exact List.eq_replicate_iff.2 ⟨by simp, by simp⟩] at h
        refine Sat.bind h fun r ⟨S, h1, h2, h3⟩ => (Sat_ok _ _).2 ?_
        rw [List.nil_append] at h2 h3
        rw [h3]
        refine ⟨_, List.rel_append h1 (unmarked_ok hq' _), ⟨?_, ?_, ?_⟩, ?_⟩
        · rw [List.map_append, List.nodup_append]
          refine ⟨h2.nodup, hG.1.sublist (List.filter_sublist.map _), fun a ha b hb e => ?_⟩
          obtain ⟨u, hu, rfl⟩ := List.mem_map.1 hb
          exact (of_decide_eq_true (List.mem_filter.1 hu).2) (e ▸ h2.sub a ha)
        · intro u hu
          rcases List.mem_append.1 hu with hu | hu
          · exact h2.val u hu
          · obtain ⟨k1, k2⟩ := List.mem_filter.1 hu
            rw [coeff_add, hF.2.2 _ (of_decide_eq_true k2), zero_add, hG.2.1 u k1]
        · intro k hk
          rw [List.map_append, List.mem_append, not_or] at hk
          by_cases hkD : k ∈ (t :: Lp).map Prod.fst
          · exact h2.zero k hkD hk.1
          · rw [coeff_add, hF.2.2 k hkD, zero_add]
            refine hG.2.2 k fun hkq => hk.2 ?_
            obtain ⟨u, hu, rfl⟩ := List.mem_map.1 hkq
            exact List.mem_map_of_mem (List.mem_filter.2 ⟨hu, decide_eq_true hkD⟩)
        · intro c1 c2 u hu
          rcases List.mem_append.1 hu with hu | hu
          · exact h2.canon c1 u hu
          · exact c2 u (List.mem_filter.1 hu).1
      · simp

/-! ### Values -/

theorem mulTimes_sat {c : α} {x : R} (hc : rep c x) : ∀ (k : ℕ) {rv : α} {y : R}, rep rv y → (mulTimes O c k rv).Sat U fun r => rep r (y * x ^ k)
  | 0, rv, y, h => (Sat_ok _ _).2 (by simpa using h)
  | k + 1, rv, y, h => by
    rw [mulTimes]
    refine Sat.bind (H.mul h hc) fun r hr => (mulTimes_sat hc k hr).mono fun r' h' => ?_
    rwa [mul_assoc, ← pow_succ'] at h'

theorem evalLoop_sat {cs : List α} {xs : List R} (hc : List.Forall₂ rep cs xs) : ∀ {es : List ℕ}, es.length = xs.length → ∀ {rv : α} {y : R}, rep rv y →
    (evalLoop O cs (es.map fun e : ℕ => (e : ℤ)) rv).Sat U fun r => rep r (y * (List.zipWith (· ^ ·) xs es).prod) := by
  induction hc with
  | nil =>
    intro es he rv y h
    rw [List.length_nil, List.length_eq_zero_iff] at he
    subst he
    exact (Sat_ok _ _).2 (by simpa using h)
  | @cons c x cs xs hcx _ ih =>
    intro es he rv y h
    cases es with
    | nil => simp at he
    | cons e es =>
      rw [List.map_cons, evalLoop, partial_eval, if_neg (by omega), Int.natAbs_natCast]
      refine Sat.bind (mulTimes_sat H hcx e h) fun r hr => ?_
      refine (ih (by simpa using he) hr).mono fun r' h' => ?_
      rw [List.zipWith_cons_cons, List.prod_cons, ← mul_assoc]
      exact h'

theorem monoEval_sat {cs : List α} {x : Fin n → R} (hc : List.Forall₂ rep cs (List.ofFn x)) {m : Mono α} {t : (Fin n →₀ ℕ) × R} (hm : MRep rep B m t) :
    (monoEval O m cs).Sat U fun r => rep r (MvPolynomial.eval x (monomial t.1 t.2)) := by
  have hl : cs.length = n := by rw [hc.length_eq, List.length_ofFn]
  rw [monoEval, if_neg (by simpa using hm.2.len.trans hl.symm)]
  have e : m.expts = (List.ofFn fun i => t.1 i).map fun e : ℕ => (e : ℤ) := by rw [hm.2.1, List.map_ofFn]; rfl
  rw [e]
  refine (evalLoop_sat H hc (es := List.ofFn fun i => t.1 i) (by simp) hm.1).mono fun r hr => ?_
  rw [eval_monomial]
  have : (List.zipWith (· ^ ·) (List.ofFn x) (List.ofFn fun i => t.1 i)) = List.ofFn fun i => x i ^ t.1 i :=
    List.ext_getElem (by simp) fun i h1 h2 => by simp
  rw [this, List.prod_ofFn] at hr
  rwa [Finsupp.prod_fintype _ _ fun i => pow_zero _]

theorem evalSum_sat {cs : List α} {x : Fin n → R} (hc : List.Forall₂ rep cs (List.ofFn x)) {L : List ((Fin n →₀ ℕ) × R)}
    (hp : List.Forall₂ (MRep rep B) p L) : ∀ {s : α} {y : R}, rep s y →
    (evalSum O cs p s).Sat U fun r => rep r (y + MvPolynomial.eval x (L.map fun t => monomial t.1 t.2).sum) := by
  induction hp with
  | nil => exact fun h => (Sat_ok _ _).2 (by simpa using h)
  | @cons m t p L hm _ ih =>
    intro s y h
    rw [evalSum]
    refine Sat.bind (monoEval_sat H hc hm) fun v hv => Sat.bind (H.add h hv) fun s' hs' => (ih hs').mono fun r hr => ?_
    rw [List.map_cons, List.sum_cons, map_add, ← add_assoc]
    exact hr

theorem eval_sat {cs : List α} {x : Fin n → R} (hn : 0 < n) (hc : List.Forall₂ rep cs (List.ofFn x)) {L : List ((Fin n →₀ ℕ) × R)}
    (hp : List.Forall₂ (MRep rep B) p L) (hF : Den L F) : (eval O p cs).Sat U fun r => rep r (MvPolynomial.eval x F) := by
  have hl : cs.length = n := by rw [hc.length_eq, List.length_ofFn]
  have h0 : 0 < cs.length := hl ▸ hn
  rw [eval, rd_ok h0, ok_bind]
  have hc0 := hc.get h0 (by simpa using hn)
  refine Sat.bind (H.sub hc0 hc0) fun z hz => (evalSum_sat H hc hp hz).mono fun r hr => ?_
  rw [sub_self, zero_add, ← hF.sum] at hr
  exact hr

/-! ### Derivatives -/

omit H in
theorem derivLoop_sat {mulI : α → Int → Res α} (hI : ∀ {a x} (v : ℕ), v < B → rep a x → (mulI a v).Sat U fun r => rep r (x * v)) (hB : B ≤ 2 ^ 31)
    (i : Fin n) {L : List ((Fin n →₀ ℕ) × R)} (hp : List.Forall₂ (MRep rep B) p L) :
    (derivLoop mulI i p).Sat U fun r => List.Forall₂ (fun m t => rep m.coeff t.2 ∧ (t.2 ≠ 0 → Ex B m.expts t.1)) r
      (L.map fun t => (t.1 - Finsupp.single i 1, t.2 * (t.1 i : R))) := by
  induction hp with
  | nil => exact (Sat_ok _ _).2 List.Forall₂.nil
  | @cons m t p L hm _ ih =>
    have hl := hm.2.len
    have hi : (i : ℕ) < m.expts.length := by rw [hl]; exact i.2
    have he : m.expts[(i : ℕ)] = (t.1 i : ℤ) := by simp [hm.2.1]
    have hlt := hm.2.2 i
    rw [derivLoop, monoDeriv, if_neg (by omega)]
    simp only [rd_ok hi, ok_bind, he, isub]
    rw [chk_ok (by unfold InInt; omega), ok_bind, wr_ok hi, ok_bind]
    refine Sat.bind (P := fun d : Mono α => rep d.coeff (t.2 * (t.1 i : R)) ∧ (t.2 * (t.1 i : R) ≠ 0 → Ex B d.expts (t.1 - Finsupp.single i 1)))
      (Sat.bind (hI (t.1 i) hlt hm.1) fun c hc => (Sat_ok _ _).2 ⟨hc, fun h0 => ⟨?_, fun k => ?_⟩⟩)
      fun d hd => Sat.bind ih fun r hr => (Sat_ok _ _).2 (List.Forall₂.cons hd hr)
    · have hpos : 1 ≤ t.1 i := Nat.one_le_iff_ne_zero.2 fun h => h0 (by rw [h, Nat.cast_zero, mul_zero])
      refine List.ext_getElem (by simp [hl]) fun k h1 h2 => ?_
      have hk : k < n := by simpa using h2
      rw [List.getElem_set, List.getElem_ofFn]
      split
      · next e =>
        subst e
        simp only [Fin.eta, Finsupp.coe_tsub, Pi.sub_apply, Finsupp.single_eq_same]
        omega
      · next e =>
        have : i ≠ ⟨k, hk⟩ := fun h => e (by rw [h])
        simp [hm.2.1, Finsupp.single_apply, this]
    · simp only [Finsupp.coe_tsub, Pi.sub_apply]
      exact (Nat.sub_le _ _).trans_lt (hm.2.2 k)

omit H in
theorem Den.deriv [DecidableEq R] {L : List ((Fin n →₀ ℕ) × R)} (h : Den L F) (i : Fin n) :
    Den ((L.map fun t => (t.1 - Finsupp.single i 1, t.2 * (t.1 i : R))).filter fun t => t.2 ≠ 0) (pderiv i F) := by
  classical
  have key : ∀ t ∈ L, t.2 * (t.1 i : R) ≠ 0 → (t.1 - Finsupp.single i 1) + Finsupp.single i 1 = t.1 := by
    intro t _ h0
    have hpos : 1 ≤ t.1 i := Nat.one_le_iff_ne_zero.2 fun h => h0 (by rw [h, Nat.cast_zero, mul_zero])
    refine tsub_add_cancel_of_le ?_
    rw [Finsupp.single_le_iff]
    exact hpos
  have hnd : ∀ {L : List ((Fin n →₀ ℕ) × R)}, (L.map Prod.fst).Nodup → (∀ t ∈ L, t.2 * (t.1 i : R) ≠ 0 → (t.1 - Finsupp.single i 1) + Finsupp.single i 1 = t.1) →
      (((L.map fun t => (t.1 - Finsupp.single i 1, t.2 * (t.1 i : R))).filter fun t => t.2 ≠ 0).map Prod.fst).Nodup := by
    intro L hL hk
    induction L with
    | nil => simp
    | cons t L ih =>
      rw [List.map_cons, List.nodup_cons] at hL
      have ih' := ih hL.2 fun u hu => hk u (List.mem_cons_of_mem _ hu)
      rw [List.map_cons]
      by_cases h0 : t.2 * (t.1 i : R) = 0
      · rw [List.filter_cons_of_neg (by simpa using h0)]
        exact ih'
      · rw [List.filter_cons_of_pos (by simpa using h0), List.map_cons, List.nodup_cons]
        refine ⟨fun hm => hL.1 ?_, ih'⟩
        obtain ⟨u, hu, e⟩ := List.mem_map.1 hm
        obtain ⟨hu1, hu2⟩ := List.mem_filter.1 hu
        obtain ⟨v, hv, rfl⟩ := List.mem_map.1 hu1
        have h1 := hk t List.mem_cons_self h0
        have h2 := hk v (List.mem_cons_of_mem _ hv) (by simpa using hu2)
        have e' : v.1 - Finsupp.single i 1 = t.1 - Finsupp.single i 1 := e
        rw [← h1, ← e', h2]
        exact List.mem_map_of_mem hv
  refine ⟨hnd h.1 key, fun t ht => ?_, fun k hk => ?_⟩
  · obtain ⟨h1, h2⟩ := List.mem_filter.1 ht
    obtain ⟨u, hu, rfl⟩ := List.mem_map.1 h1
    have e := key u hu (by simpa using h2)
    obtain ⟨d, hd⟩ : ∃ d : Fin n →₀ ℕ, d = u.1 - Finsupp.single i 1 := ⟨_, rfl⟩
    rw [← hd] at e ⊢
    show coeff d (pderiv i F) = u.2 * _
    rw [coeff_pderiv, e, h.2.1 u hu]
    have : (u.1 i : R) = (d i : R) + 1 := by rw [← e, Finsupp.add_apply, Finsupp.single_eq_same]; push_cast; ring
    rw [this]
  · rw [coeff_pderiv]
    by_cases hm : k + Finsupp.single i 1 ∈ L.map Prod.fst
    · obtain ⟨u, hu, e⟩ := List.mem_map.1 hm
      rw [← e, h.2.1 u hu]
      by_contra h0
      apply hk
      have hui : (u.1 i : R) = (k i : R) + 1 := by rw [e, Finsupp.add_apply, Finsupp.single_eq_same]; push_cast; ring
      refine List.mem_map.2 ⟨(u.1 - Finsupp.single i 1, u.2 * (u.1 i : R)), List.mem_filter.2 ⟨List.mem_map_of_mem hu, ?_⟩, ?_⟩
      · simpa [hui] using h0
      · rw [e]; exact add_tsub_cancel_right _ _
    · rw [h.2.2 _ hm, zero_mul]

/-! ### Degrees -/

omit H in
theorem monoDegree_eq : ∀ (l : List ℕ) (s : ℕ), s + l.sum < 2 ^ 31 → monoDegree (l.map fun e : ℕ => (e : ℤ)) s = ok ((s + l.sum : ℕ) : ℤ)
  | [], s, _ => by simp [monoDegree]
  | e :: l, s, h => by
    rw [List.sum_cons] at h
    rw [List.map_cons, monoDegree, iadd, chk_ok (by unfold InInt; omega), ok_bind, ← Nat.cast_add, monoDegree_eq l (s + e) (by omega), List.sum_cons, add_assoc]

omit H in
theorem monoDegree_ok {l : List Int} {e : Fin n →₀ ℕ} (hB : n * B < 2 ^ 31) (h : Ex B l e) : monoDegree l 0 = ok ((e.degree : ℕ) : ℤ) := by
  have hs : (List.ofFn fun i => e i).sum = e.degree := by
    rw [List.sum_ofFn, Finsupp.degree_eq_sum]
  have hle : e.degree ≤ n * B := by
    rw [Finsupp.degree_eq_sum]
    calc ∑ i, e i ≤ ∑ _i : Fin n, B := Finset.sum_le_sum fun i _ => (h.2 i).le
      _ = n * B := by simp
  have he : l = (List.ofFn fun i => e i).map fun e : ℕ => (e : ℤ) := by rw [h.1, List.map_ofFn]; rfl
  have := monoDegree_eq (List.ofFn fun i => e i) 0 (by omega)
  rw [he, show (0 : ℤ) = ((0 : ℕ) : ℤ) from rfl, this, hs, zero_add]

omit [CommRing R] H in
theorem if_max (a b : ℕ) : (if (a : ℤ) > b then (a : ℤ) else b) = ((max a b : ℕ) : ℤ) := by
  split <;> omega

omit [CommRing R] H in
theorem degLoop_ok (hB : n * B < 2 ^ 31) {L : List ((Fin n →₀ ℕ) × R)} (hp : List.Forall₂ (MRep rep B) p L) : ∀ mx : ℕ,
    ∃ r : ℕ, degLoop p mx = ok (r : ℤ) ∧ mx ≤ r ∧ (∀ t ∈ L, t.1.degree ≤ r) ∧ (r = mx ∨ ∃ t ∈ L, r = t.1.degree) := by
  induction hp with
  | nil => exact fun mx => ⟨mx, rfl, le_rfl, by simp, Or.inl rfl⟩
  | @cons m t p L hm _ ih =>
    intro mx
    rw [degLoop, monoDegree_ok hB hm.2, ok_bind]
    obtain ⟨r, h1, h2, h3, h4⟩ := ih (max t.1.degree mx)
    have e : (if ((t.1.degree : ℕ) : ℤ) > mx then ((t.1.degree : ℕ) : ℤ) else mx) = ((max t.1.degree mx : ℕ) : ℤ) := if_max _ _
    rw [e]
    refine ⟨r, h1, (le_max_right _ _).trans h2, ?_, ?_⟩
    · intro u hu
      rcases List.mem_cons.1 hu with rfl | hu
      · exact (le_max_left _ _).trans h2
      · exact h3 u hu
    · rcases h4 with h4 | ⟨u, hu, h4⟩
      · rcases max_choice t.1.degree mx with h | h
        · exact Or.inr ⟨t, List.mem_cons_self, h4.trans h⟩
        · exact Or.inl (h4.trans h)
      · exact Or.inr ⟨u, List.mem_cons_of_mem _ hu, h4⟩

omit H in
theorem find_degree_ok (hB : n * B < 2 ^ 31) {L : List ((Fin n →₀ ℕ) × R)} (hp : List.Forall₂ (MRep rep B) p L) (hF : Den L F)
    (h0 : ∀ t ∈ L, t.2 ≠ 0) : find_degree p = ok (F.totalDegree : ℤ) := by
  cases hp with
  | nil =>
    rw [show F = 0 from hF.unique den_nil]
    simp [find_degree]
  | @cons m t p L hm hp =>
    rw [find_degree, monoDegree_ok hB hm.2, ok_bind]
    obtain ⟨r, h1, h2, h3, h4⟩ := degLoop_ok hB hp t.1.degree
    rw [h1]
    congr 2
    obtain ⟨u, hu, er⟩ : ∃ u ∈ t :: L, r = u.1.degree := by
      rcases h4 with h4 | ⟨u, hu, h4⟩
      · exact ⟨t, List.mem_cons_self, h4⟩
      · exact ⟨u, List.mem_cons_of_mem _ hu, h4⟩
    apply le_antisymm
    · rw [er]
      exact le_totalDegree (mem_support_iff.2 (by rw [hF.2.1 u hu]; exact h0 u hu))
    · refine Finset.sup_le fun d hd => ?_
      rw [mem_support_iff] at hd
      have : d ∈ (t :: L).map Prod.fst := by
        by_contra h
        exact hd (hF.2.2 d h)
      obtain ⟨v, hv, rfl⟩ := List.mem_map.1 this
      show v.1.degree ≤ r
      rcases List.mem_cons.1 hv with rfl | hv
      · exact h2
      · exact h3 v hv

omit [CommRing R] H in
theorem homLoop_ok (hB : n * B < 2 ^ 31) {L : List ((Fin n →₀ ℕ) × R)} (hp : List.Forall₂ (MRep rep B) p L) (d : ℕ) :
    ∃ b, homLoop (d : ℤ) p = ok b ∧ (b = true ↔ ∀ t ∈ L, t.1.degree = d) := by
  induction hp with
  | nil => exact ⟨true, rfl, by simp⟩
  | @cons m t p L hm _ ih =>
    rw [homLoop, monoDegree_ok hB hm.2, ok_bind]
    by_cases h : t.1.degree = d
    · rw [if_neg (by simpa using h)]
      obtain ⟨b, h1, h2⟩ := ih
      exact ⟨b, h1, h2.trans (by simp [h])⟩
    · rw [if_pos (by simpa using h)]
      exact ⟨false, rfl, by simp [h]⟩

omit H in
theorem weight_deg (e : Fin n →₀ ℕ) : Finsupp.weight (1 : Fin n → ℕ) e = e.degree := by
  rw [Finsupp.degree_eq_weight_one]; rfl

omit H in
theorem is_homogeneous_ok (hB : n * B < 2 ^ 31) {L : List ((Fin n →₀ ℕ) × R)} (hp : List.Forall₂ (MRep rep B) p L) (hF : Den L F)
    (h0 : ∀ t ∈ L, t.2 ≠ 0) : ∃ b, is_homogeneous p = ok b ∧ (b = true ↔ ∃ d, F.IsHomogeneous d) := by
  cases hp with
  | nil => exact ⟨true, rfl, by simpa using ⟨0, by rw [show F = 0 from hF.unique den_nil]; exact isHomogeneous_zero _ _ _⟩⟩
  | @cons m t p L hm hp =>
    rw [is_homogeneous, monoDegree_ok hB hm.2, ok_bind]
    obtain ⟨b, h1, h2⟩ := homLoop_ok hB hp t.1.degree
    refine ⟨b, h1, h2.trans ⟨fun h => ⟨t.1.degree, fun {d} hd => ?_⟩, ?_⟩⟩
    · have : d ∈ (t :: L).map Prod.fst := by
        by_contra h
        exact hd (hF.2.2 d h)
      obtain ⟨v, hv, rfl⟩ := List.mem_map.1 this
      rw [weight_deg]
      rcases List.mem_cons.1 hv with rfl | hv
      · rfl
      · exact h v hv
    · rintro ⟨d, hd⟩ u hu
      have k1 := hd (d := t.1) (by rw [hF.2.1 t List.mem_cons_self]; exact h0 t List.mem_cons_self)
      have k2 := hd (d := u.1) (by rw [hF.2.1 u (List.mem_cons_of_mem _ hu)]; exact h0 u (List.mem_cons_of_mem _ hu))
      rw [weight_deg] at k1 k2
      rw [k1, k2]

end ops
end MvPoly
end Spffl
