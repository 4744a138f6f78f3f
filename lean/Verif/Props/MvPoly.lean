/-
Properties C119 and C120: polynomials in several variables.
-/
import Verif.Proof.MvPoly
import Verif.Proof.MvHom
import Verif.Proof.CoefInst
import Verif.Proof.CMod
import Verif.Proof.IntRat

namespace Spffl.Props
open Res MvPolynomial
namespace MvPolys
open Spffl.MvPoly

/-- The terms of the program are those of F, and none of them has the coefficient 0. -/
def Clean {α R : Type} [CommRing R] {n : ℕ} (rep : α → R → Prop) (B : ℕ) (p : List (Mono α)) (F : MvPolynomial (Fin n) R) : Prop :=
  ∃ L, List.Forall₂ (MRep rep B) p L ∧ Den L F ∧ ∀ t ∈ L, t.2 ≠ 0

/-- What is claimed of the operations: sums, differences, negatives and products are those of the polynomial ring, if the exponents of the
factors are small enough for int; sums, differences and negatives of polynomials without zero terms have no zero terms. -/
structure Arith (U : Prop) {α R : Type} [CommRing R] (O : CoefOps α) (rep : α → R → Prop) : Prop where
  add : ∀ {n B p q} {F G : MvPolynomial (Fin n) R}, Rep rep B p F → Rep rep B q G → (MvPoly.add O p q).Sat U fun r => Rep rep B r (F + G)
  sub : ∀ {n B p q} {F G : MvPolynomial (Fin n) R}, Rep rep B p F → Rep rep B q G → (MvPoly.sub O p q).Sat U fun r => Rep rep B r (F - G)
  neg : ∀ {n B p} {F : MvPolynomial (Fin n) R}, Rep rep B p F → (MvPoly.neg O p).Sat U fun r => Rep rep B r (-F)
  mul : ∀ {n B C p q} {F G : MvPolynomial (Fin n) R}, B + C ≤ 2 ^ 31 → Rep rep B p F → Rep rep C q G →
    (MvPoly.mul O p q).Sat U fun r => Rep rep (B + C) r (F * G)
  add_clean : ∀ {n B p q} {F G : MvPolynomial (Fin n) R}, Clean rep B p F → Clean rep B q G → (MvPoly.add O p q).Sat U fun r => Clean rep B r (F + G)
  sub_clean : ∀ {n B p q} {F G : MvPolynomial (Fin n) R}, Clean rep B p F → Clean rep B q G → (MvPoly.sub O p q).Sat U fun r => Clean rep B r (F - G)
  neg_clean : ∀ {n B p} {F : MvPolynomial (Fin n) R}, Clean rep B p F → (MvPoly.neg O p).Sat U fun r => Clean rep B r (-F)

section general
variable {α R : Type} [CommRing R] {rep : α → R → Prop} {ord : R → R → Prop} {O : CoefOps α} {U : Prop} (H : CoefRef U O rep ord)
variable {n : ℕ} {B : ℕ} {p q : List (Mono α)} {F G : MvPolynomial (Fin n) R}
include H

theorem neg_clean (hp : Clean rep B p F) : (neg O p).Sat U fun r => Clean rep B r (-F) := by
  obtain ⟨L, h1, h2, h3⟩ := hp
  refine (neg_sat H h1).mono fun r hr => ⟨_, hr, h2.neg, fun t ht => ?_⟩
  obtain ⟨u, hu, rfl⟩ := List.mem_map.1 ht
  exact neg_ne_zero.2 (h3 u hu)

theorem neg_rep (hp : Rep rep B p F) : (neg O p).Sat U fun r => Rep rep B r (-F) := by
  obtain ⟨L, h1, h2⟩ := hp
  exact (neg_sat H h1).mono fun r hr => ⟨_, hr, h2.neg⟩

theorem add_clean (hp : Clean rep B p F) (hq : Clean rep B q G) : (add O p q).Sat U fun r => Clean rep B r (F + G) := by
  obtain ⟨L, h1, h2, h3⟩ := hp
  obtain ⟨L', k1, k2, k3⟩ := hq
  exact (add_sat H h1 h2 k1 k2).mono fun r ⟨L, m1, m2, m3⟩ => ⟨L, m1, m2, m3 h3 k3⟩

theorem add_rep (hp : Rep rep B p F) (hq : Rep rep B q G) : (add O p q).Sat U fun r => Rep rep B r (F + G) := by
  obtain ⟨L, h1, h2⟩ := hp
  obtain ⟨L', k1, k2⟩ := hq
  exact (add_sat H h1 h2 k1 k2).mono fun r ⟨L, m1, m2, _⟩ => ⟨L, m1, m2⟩

theorem arith : Arith U O rep where
  add := add_rep H
  sub hp hq := by
    rw [sub_eq_add_neg]
    exact Sat.bind (neg_rep H hq) fun r hr => add_rep H hp hr
  neg := neg_rep H
  mul hB hp hq := by
    obtain ⟨L, h1, h2⟩ := hp
    obtain ⟨L', k1, k2⟩ := hq
    exact (mul_sat H hB h1 h2 k1 k2).mono fun r ⟨L, m1, m2, _⟩ => ⟨L, m1, m2⟩
  add_clean := add_clean H
  sub_clean hp hq := by
    rw [sub_eq_add_neg]
    exact Sat.bind (neg_clean H hq) fun r hr => add_clean H hp hr
  neg_clean := neg_clean H

omit H in
theorem clean_keys {r : List (Mono α)} {L L' : List ((Fin n →₀ ℕ) × R)} {B' : ℕ} (h : List.Forall₂ (MRep rep B) r L) (h' : List.Forall₂ (MRep rep B') r L') :
    L.map Prod.fst = L'.map Prod.fst := by
  induction h generalizing L' with
  | nil => cases h'; rfl
  | cons hm _ ih =>
    cases h' with
    | cons hm' h' => rw [List.map_cons, List.map_cons, ih h', hm.2.inj hm'.2]

omit H in
theorem mem_support_keys {L : List ((Fin n →₀ ℕ) × R)} (h : Den L F) (h0 : ∀ t ∈ L, t.2 ≠ 0) (d : Fin n →₀ ℕ) : d ∈ F.support ↔ ∃ t ∈ L, t.1 = d := by
  rw [mem_support_iff]
  constructor
  · intro hd
    by_contra hn
    exact hd (h.2.2 d fun hm => hn (by obtain ⟨t, ht, e⟩ := List.mem_map.1 hm; exact ⟨t, ht, e⟩))
  · rintro ⟨t, ht, rfl⟩
    rw [h.2.1 t ht]; exact h0 t ht

/-- A product has a term for every sum of a monomial of one factor and one of the other, whether or not its coefficient is 0. -/
theorem mul_clean_iff {C : ℕ} (hB : B + C ≤ 2 ^ 31) (hp : Clean rep B p F) (hq : Clean rep C q G) : (mul O p q).Sat U fun r =>
    Rep rep (B + C) r (F * G) ∧ (Clean rep (B + C) r (F * G) ↔ ∀ d ∈ F.support, ∀ e ∈ G.support, coeff (d + e) (F * G) ≠ 0) := by
  obtain ⟨L, h1, h2, h3⟩ := hp
  obtain ⟨L', k1, k2, k3⟩ := hq
  refine (mul_sat H hB h1 h2 k1 k2).mono fun r ⟨L2, m1, m2, m3⟩ => ⟨⟨L2, m1, m2⟩, ?_, ?_⟩
  · rintro ⟨L3, q1, q2, q3⟩ d hd e he
    obtain ⟨t, ht, rfl⟩ := (mem_support_keys h2 h3 d).1 hd
    obtain ⟨u, hu, rfl⟩ := (mem_support_keys k2 k3 e).1 he
    have : t.1 + u.1 ∈ L3.map Prod.fst := by rw [← clean_keys m1 q1, m3]; exact ⟨t, ht, u, hu, rfl⟩
    obtain ⟨v, hv, ev⟩ := List.mem_map.1 this
    rw [← ev, q2.2.1 v hv]
    exact q3 v hv
  · intro h
    refine ⟨L2, m1, m2, fun v hv => ?_⟩
    obtain ⟨t, ht, u, hu, e⟩ := (m3 v.1).1 (List.mem_map_of_mem hv)
    rw [← m2.2.1 v hv, e]
    exact h _ ((mem_support_keys h2 h3 _).2 ⟨t, ht, rfl⟩) _ ((mem_support_keys k2 k3 _).2 ⟨u, hu, rfl⟩)

theorem printable_throws {L : List ((Fin n →₀ ℕ) × R)} (hp : List.Forall₂ (MRep rep B) p L) (h : ∃ t ∈ L, t.2 = 0) : (printable O p).Throws U := by
  induction hp with
  | nil => simp at h
  | @cons m t p L hm _ ih =>
    rw [printable]
    refine Sat.throws_bind (H.sub hm.1 hm.1) fun z hz => ?_
    rw [sub_self] at hz
    refine Sat.throws_bind (H.eq hm.1 hz) fun b hb => ?_
    by_cases h0 : t.2 = 0
    · rw [if_pos (hb.2 h0)]; exact Or.inl rfl
    · rw [if_neg fun k => h0 (hb.1 k)]
      refine ih ?_
      obtain ⟨u, hu, e⟩ := h
      rcases List.mem_cons.1 hu with rfl | hu
      · exact absurd e h0
      · exact ⟨u, hu, e⟩

theorem printable_ok {L : List ((Fin n →₀ ℕ) × R)} (hp : List.Forall₂ (MRep rep B) p L) (h : ∀ t ∈ L, t.2 ≠ 0) : (printable O p).Sat U fun _ => True := by
  induction hp with
  | nil => exact (Sat_ok _ _).2 trivial
  | @cons m t p L hm _ ih =>
    rw [printable]
    refine Sat.bind (H.sub hm.1 hm.1) fun z hz => ?_
    rw [sub_self] at hz
    refine Sat.bind (H.eq hm.1 hz) fun b hb => ?_
    rw [if_neg fun k => h t List.mem_cons_self (hb.1 k)]
    exact ih fun u hu => h u (List.mem_cons_of_mem _ hu)

omit H in
theorem degree_max {L : List ((Fin n →₀ ℕ) × R)} (hB : n * B < 2 ^ 31) (hp : List.Forall₂ (MRep rep B) p L) (hL : L ≠ []) :
    ∃ r : ℕ, find_degree p = ok (r : ℤ) ∧ (∀ t ∈ L, t.1.degree ≤ r) ∧ ∃ t ∈ L, r = t.1.degree := by
  cases hp with
  | nil => exact absurd rfl hL
  | @cons m t p L hm hp =>
    rw [find_degree, monoDegree_ok hB hm.2, ok_bind]
    obtain ⟨r, h1, h2, h3, h4⟩ := degLoop_ok hB hp t.1.degree
    refine ⟨r, h1, fun u hu => ?_, ?_⟩
    · rcases List.mem_cons.1 hu with rfl | hu
      · exact h2
      · exact h3 u hu
    · rcases h4 with h4 | ⟨u, hu, h4⟩
      · exact ⟨t, List.mem_cons_self, h4⟩
      · exact ⟨u, List.mem_cons_of_mem _ hu, h4⟩

omit H in
theorem max_eq_totalDegree {L : List ((Fin n →₀ ℕ) × R)} (hF : Den L F) (h0 : ∀ t ∈ L, t.2 ≠ 0) {r : ℕ} (h1 : ∀ t ∈ L, t.1.degree ≤ r)
    (h2 : ∃ t ∈ L, r = t.1.degree) : r = F.totalDegree := by
  obtain ⟨t, ht, e⟩ := h2
  apply le_antisymm
  · rw [e]
    exact le_totalDegree ((mem_support_keys hF h0 _).2 ⟨t, ht, rfl⟩)
  · refine Finset.sup_le fun d hd => ?_
    obtain ⟨v, hv, rfl⟩ := (mem_support_keys hF h0 d).1 hd
    exact h1 v hv

omit H in
theorem exists_totalDegree {L : List ((Fin n →₀ ℕ) × R)} (hF : Den L F) (h0 : ∀ t ∈ L, t.2 ≠ 0) (hne : F ≠ 0) :
    (∀ t ∈ L, t.1.degree ≤ F.totalDegree) ∧ ∃ t ∈ L, t.1.degree = F.totalDegree := by
  refine ⟨fun t ht => le_totalDegree ((mem_support_keys hF h0 _).2 ⟨t, ht, rfl⟩), ?_⟩
  obtain ⟨d, hd, e⟩ := Finset.exists_mem_eq_sup F.support (support_nonempty.2 hne) fun s => s.sum fun _ e => e
  obtain ⟨t, ht, rfl⟩ := (mem_support_keys hF h0 d).1 hd
  exact ⟨t, ht, e.symm⟩

/-- The degree of a product of the program is the sum of the degrees, even if the product has a smaller degree. -/
theorem mul_degree {C : ℕ} (hB : B + C ≤ 2 ^ 31) (hn : n * (B + C) < 2 ^ 31) (hp : Clean rep B p F) (hq : Clean rep C q G) (hF : F ≠ 0) (hG : G ≠ 0) :
    (mul O p q).Sat U fun r => find_degree r = ok ((F.totalDegree + G.totalDegree : ℕ) : ℤ) := by
  obtain ⟨L, h1, h2, h3⟩ := hp
  obtain ⟨L', k1, k2, k3⟩ := hq
  obtain ⟨f1, t, ht, f2⟩ := exists_totalDegree h2 h3 hF
  obtain ⟨g1, u, hu, g2⟩ := exists_totalDegree k2 k3 hG
  refine (mul_sat H hB h1 h2 k1 k2).mono fun r ⟨L2, m1, m2, m3⟩ => ?_
  have hm : t.1 + u.1 ∈ L2.map Prod.fst := (m3 _).2 ⟨t, ht, u, hu, rfl⟩
  obtain ⟨w, hw, ew⟩ := List.mem_map.1 hm
  obtain ⟨d, d1, d2, v, hv, d3⟩ := degree_max hn m1 (List.ne_nil_of_mem hw)
  rw [d1]
  congr 2
  apply le_antisymm
  · obtain ⟨a, ha, b, hb, e⟩ := (m3 v.1).1 (List.mem_map_of_mem hv)
    rw [d3, e, map_add]
    exact Nat.add_le_add (f1 a ha) (g1 b hb)
  · rw [← f2, ← g2, ← map_add, ← ew]
    exact d2 w hw

/-- A polynomial made of three terms has the first two only. -/
theorem three {m0 m1 m2 : Mono α} {t0 t1 : (Fin n →₀ ℕ) × R} (h0 : MRep rep B m0 t0) (h1 : MRep rep B m1 t1) (hne : t0.1 ≠ t1.1) :
    (ctor3 O m0 m1 m2).Sat U fun r => Clean rep B r (monomial t0.1 t0.2 + monomial t1.1 t1.2) := by
  classical
  have hs := strip_sat H (p := [m0, m1]) (L := [t0, t1]) (B := B)
    (List.Forall₂.cons ⟨h0.1, fun _ => h0.2⟩ (List.Forall₂.cons ⟨h1.1, fun _ => h1.2⟩ List.Forall₂.nil))
  have hd := den_sum [t0, t1] (by simpa using hne)
  refine hs.mono fun r hr => ⟨_, hr, ?_, fun t ht => by simpa using (List.mem_filter.1 ht).2⟩
  have := hd.filter
  simpa using this

theorem two {m0 m1 : Mono α} {t0 t1 : (Fin n →₀ ℕ) × R} (h0 : MRep rep B m0 t0) (h1 : MRep rep B m1 t1) (hne : t0.1 ≠ t1.1) :
    (ctor2 O m0 m1).Sat U fun r => Clean rep B r (monomial t0.1 t0.2 + monomial t1.1 t1.2) := three (m2 := m0) H h0 h1 hne

theorem one {m0 : Mono α} {t0 : (Fin n →₀ ℕ) × R} (h0 : MRep rep B m0 t0) : (ctor1 O m0).Sat U fun r => Clean rep B r (monomial t0.1 t0.2) := by
  classical
  have hs := strip_sat H (p := [m0]) (L := [t0]) (B := B) (List.Forall₂.cons ⟨h0.1, fun _ => h0.2⟩ List.Forall₂.nil)
  have hd := den_sum [t0] (by simp)
  refine hs.mono fun r hr => ⟨_, hr, ?_, fun t ht => by simpa using (List.mem_filter.1 ht).2⟩
  have := hd.filter
  simpa using this

end general

/-! ### Coefficients modulo m -/

section int
variable {m : ℕ} {n B C : ℕ} {p q : List (Mono IntMod)} {F G : MvPolynomial (Fin n) (ZMod m)}

/-- C119, coefficients modulo m. -/
theorem C119_intmod (h2 : 2 ≤ m) (hm : m ≤ 46341) : Arith False IntMod.cops (IntMod.Rep m) := arith (IntMod.cops_ref h2 hm)

/-- C119: a polynomial of one term, or of two terms with different monomials. -/
theorem C119_constructors (h2 : 2 ≤ m) (hm : m ≤ 46341) {m0 m1 : Mono IntMod} {t0 t1 : (Fin n →₀ ℕ) × ZMod m} (h0 : MRep (IntMod.Rep m) B m0 t0)
    (h1 : MRep (IntMod.Rep m) B m1 t1) (hne : t0.1 ≠ t1.1) :
    ((ctor1 IntMod.cops m0).Ok fun r => Clean (IntMod.Rep m) B r (monomial t0.1 t0.2)) ∧
    (ctor2 IntMod.cops m0 m1).Ok fun r => Clean (IntMod.Rep m) B r (monomial t0.1 t0.2 + monomial t1.1 t1.2) :=
  ⟨sat_false.1 (one (IntMod.cops_ref h2 hm) h0), sat_false.1 (two (IntMod.cops_ref h2 hm) h0 h1 hne)⟩

/-- C119: the constructor for three terms forgets the third. -/
theorem C119_violated_three_terms (h2 : 2 ≤ m) (hm : m ≤ 46341) {m0 m1 m2 : Mono IntMod} {t0 t1 t2 : (Fin n →₀ ℕ) × ZMod m}
    (h0 : MRep (IntMod.Rep m) B m0 t0) (h1 : MRep (IntMod.Rep m) B m1 t1) (hne : t0.1 ≠ t1.1) (hc : t2.2 ≠ 0) :
    (ctor3 IntMod.cops m0 m1 m2).Ok fun r => ∃ F, Clean (IntMod.Rep m) B r F ∧ F ≠ monomial t0.1 t0.2 + monomial t1.1 t1.2 + monomial t2.1 t2.2 := by
  refine (sat_false.1 (three (IntMod.cops_ref h2 hm) h0 h1 hne)).mono fun r hr => ⟨_, hr, fun e => hc ?_⟩
  exact (monomial_eq_zero).1 (left_eq_add.1 e)

/-- C119: a product keeps terms with coefficient 0; such a polynomial cannot be printed. -/
theorem C119_violated_zero_terms (h2 : 2 ≤ m) (hm : m ≤ 46341) (hB : B + C ≤ 2 ^ 31) (hp : Clean (IntMod.Rep m) B p F)
    (hq : Clean (IntMod.Rep m) C q G) {d e : Fin n →₀ ℕ} (hd : d ∈ F.support) (he : e ∈ G.support) (h0 : coeff (d + e) (F * G) = 0) :
    (mul IntMod.cops p q).Ok fun r => Rep (IntMod.Rep m) (B + C) r (F * G) ∧ printable IntMod.cops r = throw := by
  have H := IntMod.cops_ref h2 hm
  obtain ⟨L, h1, h2', h3⟩ := hp
  obtain ⟨L', k1, k2, k3⟩ := hq
  refine (sat_false.1 (mul_sat H hB h1 h2' k1 k2)).mono fun r ⟨L2, m1, m2, m3⟩ => ⟨⟨L2, m1, m2⟩, ?_⟩
  obtain ⟨t, ht, rfl⟩ := (mem_support_keys h2' h3 d).1 hd
  obtain ⟨u, hu, rfl⟩ := (mem_support_keys k2 k3 e).1 he
  obtain ⟨w, hw, ew⟩ := List.mem_map.1 ((m3 _).2 ⟨t, ht, u, hu, rfl⟩)
  rcases printable_throws H m1 ⟨w, hw, by rw [← m2.2.1 w hw, ew, h0]⟩ with h | h
  · exact h
  · exact h.1.elim

/-- C119: a product without such cancellation has no zero terms, and can be printed. -/
theorem C119_product (h2 : 2 ≤ m) (hm : m ≤ 46341) (hB : B + C ≤ 2 ^ 31) (hp : Clean (IntMod.Rep m) B p F) (hq : Clean (IntMod.Rep m) C q G) :
    (mul IntMod.cops p q).Ok fun r => Rep (IntMod.Rep m) (B + C) r (F * G) ∧
      ((∀ d ∈ F.support, ∀ e ∈ G.support, coeff (d + e) (F * G) ≠ 0) → Clean (IntMod.Rep m) (B + C) r (F * G) ∧ printable IntMod.cops r = ok ()) := by
  have H := IntMod.cops_ref h2 hm
  refine (sat_false.1 (mul_clean_iff H hB hp hq)).mono fun r ⟨h1, h2⟩ => ⟨h1, fun h => ?_⟩
  have hc := h2.2 h
  refine ⟨hc, ?_⟩
  obtain ⟨L, c1, c2, c3⟩ := hc
  obtain ⟨u, hu, -⟩ := sat_false.1 (printable_ok H c1 c3)
  exact hu

/-- C120: the value of a polynomial at a vector. -/
theorem C120_value (h2 : 2 ≤ m) (hm : m ≤ 46341) (hn : 0 < n) {c : List IntMod} {x : Fin n → ZMod m} (hc : List.Forall₂ (IntMod.Rep m) c (List.ofFn x))
    (hp : Rep (IntMod.Rep m) B p F) : (MvPoly.eval IntMod.cops p c).Ok fun r => IntMod.Rep m r (MvPolynomial.eval x F) := by
  obtain ⟨L, h1, h3⟩ := hp
  exact sat_false.1 (eval_sat (IntMod.cops_ref h2 hm) hn hc h1 h3)

/-- C120: the derivative with respect to a variable; it has no zero terms. -/
theorem C120_derivative (h2 : 2 ≤ m) (hm : m ≤ 46341) (hB : m * B ≤ 2 ^ 31) (hp : Rep (IntMod.Rep m) B p F) (i : Fin n) :
    (deriv IntMod.cops IntMod.mulInt p i).Ok fun r => Clean (IntMod.Rep m) B r (pderiv i F) := by
  obtain ⟨L, h1, h3⟩ := hp
  have hI : ∀ {a : IntMod} {x : ZMod m} (v : ℕ), v < B → IntMod.Rep m a x → (IntMod.mulInt a v).Sat False fun r => IntMod.Rep m r (x * (v : ZMod m)) := by
    intro a x v hv ha
    obtain ⟨a1, a2, a3, a4⟩ := ha
    have hi : InInt (a.residue * v) := by
      have : a.residue * v ≤ (m : ℤ) * B := mul_le_mul (by omega) (by omega) (by omega) (by omega)
      have h0 : 0 ≤ a.residue * v := mul_nonneg (by omega) (by omega)
      have hlt : a.residue * v < (m : ℤ) * B := by
        rcases Nat.eq_zero_or_pos v with rfl | hv0
        · have : 0 < (m : ℤ) * B := mul_pos (by omega) (by omega)
          simpa using this
        · exact mul_lt_mul (by omega) (by omega) (by omega) (by omega)
      have hB' : (m : ℤ) * B ≤ 2 ^ 31 := by exact_mod_cast hB
      unfold InInt
      omega
    rw [IntMod.mulInt, imul, chk_ok hi, ok_bind]
    have := IntMod.mk'_ok (m := m) (by omega) (by unfold InInt; omega) hi
    rw [a1]
    refine (sat_false.2 this).mono fun r hr => ?_
    rw [← a4]
    exact_mod_cast hr
  have hB' : B ≤ 2 ^ 31 := le_trans (Nat.le_mul_of_pos_left B (by omega)) hB
  refine sat_false.1 (Sat.bind (derivLoop_sat hI hB' i h1) fun r hr => (strip_sat (IntMod.cops_ref h2 hm) hr).mono fun r' hr' => ?_)
  exact ⟨_, hr', h3.deriv i, fun t ht => by simpa using (List.mem_filter.1 ht).2⟩

/-- C120: the degree, and whether the polynomial is homogeneous. -/
theorem C120_degree (hB : n * B < 2 ^ 31) (hp : Clean (IntMod.Rep m) B p F) : find_degree p = ok (F.totalDegree : ℤ) ∧
    (is_homogeneous p).Ok fun b => b = true ↔ ∃ d, F.IsHomogeneous d := by
  obtain ⟨L, h1, h3, h4⟩ := hp
  refine ⟨find_degree_ok hB h1 h3 h4, ?_⟩
  obtain ⟨b, e, hb⟩ := is_homogeneous_ok hB h1 h3 h4
  exact ⟨b, e, hb⟩

/-- C120: homogenize.  A homogeneous polynomial is returned as it is; any other one, in fewer than 8 variables, becomes homogeneous of the same
degree in one more variable, with 1 for the new variable it is the polynomial it was, and it has no zero terms. -/
theorem C120_homogenize (hB : n * B < 2 ^ 31) (hn : n < 8) (hp : Clean (IntMod.Rep m) B p F) :
    ((∃ d, F.IsHomogeneous d) → homogenize p = ok p) ∧
    ((¬ ∃ d, F.IsHomogeneous d) → (homogenize p).Ok fun r => ∃ G : MvPolynomial (Fin (n + 1)) (ZMod m),
      Clean (IntMod.Rep m) (B + n * B + 1) r G ∧ G.IsHomogeneous F.totalDegree ∧
      aeval (Fin.snoc (α := fun _ => MvPolynomial (Fin n) (ZMod m)) X 1) G = F) := by
  obtain ⟨L, h1, h3, h4⟩ := hp
  refine ⟨fun h => ?_, fun h => ?_⟩
  · obtain ⟨b, e, hb⟩ := is_homogeneous_ok hB h1 h3 h4
    rw [homogenize, e, ok_bind, if_pos (hb.2 h)]
  · obtain ⟨r, e, G, L', k1, k2, k3, k4, k5⟩ := homogenize_ok hB hn h1 h3 h4 h
    exact ⟨r, e, G, ⟨L', k1, k2, k3⟩, k4, k5⟩

/-- C120: with 8 variables there is none left, and a polynomial that is not homogeneous ends the program. -/
theorem C120_homogenize_full (hB : n * B < 2 ^ 31) (hn : 8 ≤ n) (hp : Clean (IntMod.Rep m) B p F) (h : ¬ ∃ d, F.IsHomogeneous d) :
    homogenize p = throw := by
  obtain ⟨L, h1, h3, h4⟩ := hp
  obtain ⟨b, e, hb⟩ := is_homogeneous_ok hB h1 h3 h4
  rw [homogenize, e, ok_bind, if_neg (fun hbt => h (hb.1 hbt)), find_degree_ok hB h1 h3 h4, ok_bind]
  cases h1 with
  | nil => exact absurd ⟨0, by rw [show F = 0 from h3.unique den_nil]; exact isHomogeneous_zero _ _ _⟩ h
  | @cons a t p L hm hp =>
    have hlen : a.expts.length = n := by rw [hm.2.1]; simp
    rw [homogenizeLoop, monoHomogenize, if_pos (by omega)]
    rfl

/-- C120: the degree found for a product is the sum of the degrees of the factors, also where the product has a smaller degree. -/
theorem C120_violated_degree (h2 : 2 ≤ m) (hm : m ≤ 46341) (hB : B + C ≤ 2 ^ 31) (hn : n * (B + C) < 2 ^ 31) (hp : Clean (IntMod.Rep m) B p F)
    (hq : Clean (IntMod.Rep m) C q G) (hF : F ≠ 0) (hG : G ≠ 0) (hd : (F * G).totalDegree < F.totalDegree + G.totalDegree) :
    (mul IntMod.cops p q).Ok fun r => Rep (IntMod.Rep m) (B + C) r (F * G) ∧ ∃ k : ℤ, find_degree r = ok k ∧ (F * G).totalDegree < k := by
  have H := IntMod.cops_ref h2 hm
  have k1 := sat_false.1 (mul_degree H hB hn hp hq hF hG)
  have k2 := sat_false.1 (mul_clean_iff H hB hp hq)
  obtain ⟨r, e1, r1⟩ := k1
  obtain ⟨r', e2, r2⟩ := k2
  rw [e1] at e2
  injection e2 with e2
  subst e2
  exact ⟨r, e1, r2.1, _, r1, by exact_mod_cast hd⟩

end int

/-- C119, coefficients in F2[x]/m. -/
theorem C119_f2mod {m : Polynomial (ZMod 2)} (hm : m ≠ 0) : Arith False F2Mod.cops (F2Mod.Rep m) := arith (F2Mod.cops_ref hm)

/-- C119, coefficients in Fp[x]/M: unless the negative of a residue of degree 1 or more is taken (C37). -/
theorem C119_fpmod_partial {p : ℕ} [Fact p.Prime] {M : Polynomial (ZMod p)} (hb : p ≤ 46341) (hM : M ≠ 0) :
    Arith True FpMod.cops (CMod.Rep (IntMod.Rep p) M) := arith (FpMod.cops_ref hb hM)

/-- C119, rational coefficients: unless an int overflows. -/
theorem C119_q_partial : Arith True IntRat.cops IntRat.Rep := arith IntRat.cops_ref

/-- C120, coefficients in F2[x]/m: values. -/
theorem C120_f2mod_value {m : Polynomial (ZMod 2)} (hm : m ≠ 0) {n B : ℕ} (hn : 0 < n) {p : List (Mono F2Mod)} {F : MvPolynomial (Fin n) (AdjoinRoot m)}
    {c : List F2Mod} {x : Fin n → AdjoinRoot m} (hc : List.Forall₂ (F2Mod.Rep m) c (List.ofFn x)) (hp : Rep (F2Mod.Rep m) B p F) :
    (MvPoly.eval F2Mod.cops p c).Ok fun r => F2Mod.Rep m r (MvPolynomial.eval x F) := by
  obtain ⟨L, h1, h3⟩ := hp
  exact sat_false.1 (eval_sat (F2Mod.cops_ref hm) hn hc h1 h3)

/-- x + y and x - y modulo 5; their sum is 2 x, their product x² + 0 x y - y², which cannot be printed. -/
def exP : List (Mono IntMod) := [⟨⟨1, 5⟩, [1, 0]⟩, ⟨⟨1, 5⟩, [0, 1]⟩]
def exM : List (Mono IntMod) := [⟨⟨1, 5⟩, [1, 0]⟩, ⟨⟨4, 5⟩, [0, 1]⟩]

example : MvPoly.add IntMod.cops exP exM = ok [⟨⟨2, 5⟩, [1, 0]⟩] := by decide +kernel
example : MvPoly.mul IntMod.cops exP exM = ok [⟨⟨1, 5⟩, [2, 0]⟩, ⟨⟨0, 5⟩, [1, 1]⟩, ⟨⟨4, 5⟩, [0, 2]⟩] := by decide +kernel
example : (MvPoly.mul IntMod.cops exP exM >>= printable IntMod.cops) = throw := by decide +kernel
/-- x³ + 2 y + 1 becomes x³ + 2 y z² + z³. -/
example : homogenize [⟨⟨1, 5⟩, [3, 0]⟩, ⟨⟨2, 5⟩, [0, 1]⟩, ⟨⟨1, 5⟩, [0, 0]⟩] =
    ok [⟨(⟨1, 5⟩ : IntMod), [3, 0, 0]⟩, ⟨⟨2, 5⟩, [0, 1, 2]⟩, ⟨⟨1, 5⟩, [0, 0, 3]⟩] := by decide +kernel
example : MvPoly.eval IntMod.cops exM [⟨2, 5⟩, ⟨3, 5⟩] = ok ⟨4, 5⟩ := by decide +kernel
example : MvPoly.deriv IntMod.cops IntMod.mulInt [⟨⟨1, 5⟩, [5, 0]⟩, ⟨⟨3, 5⟩, [2, 1]⟩, ⟨⟨1, 5⟩, [0, 3]⟩] 0 = ok [⟨⟨1, 5⟩, [1, 1]⟩] := by decide +kernel
example : find_degree exP = ok 1 ∧ is_homogeneous exP = ok true := by decide +kernel

/-- 2 x times 3 x modulo 6 is 0; the program finds the degree 2. -/
example : (MvPoly.mul IntMod.cops [⟨⟨2, 6⟩, [1]⟩] [⟨⟨3, 6⟩, [1]⟩] >>= find_degree) = ok 2 := by decide +kernel

/-- x + y + 1 with the constructor for three terms is x + y. -/
example : ctor3 IntMod.cops ⟨⟨1, 5⟩, [1, 0]⟩ ⟨⟨1, 5⟩, [0, 1]⟩ ⟨⟨1, 5⟩, [0, 0]⟩ = ok exP := by decide +kernel

/-- The list `exP` is the polynomial X 0 + X 1. -/
example : Clean (IntMod.Rep 5) 2 exP (X 0 + X 1 : MvPolynomial (Fin 2) (ZMod 5)) := by
  have h1 : IntMod.Rep 5 ⟨1, 5⟩ (1 : ZMod 5) := ⟨rfl, by decide, by decide, by decide⟩
  have e0 : Ex (n := 2) 2 [1, 0] (Finsupp.single 0 1) := ⟨by simp [List.ofFn_succ], fun i => by fin_cases i <;> simp⟩
  have e1 : Ex (n := 2) 2 [0, 1] (Finsupp.single 1 1) := ⟨by simp [List.ofFn_succ], fun i => by fin_cases i <;> simp⟩
  obtain ⟨r, hr, hc⟩ := (C119_constructors (m := 5) (by decide) (by decide) (m0 := ⟨⟨1, 5⟩, [1, 0]⟩) (m1 := ⟨⟨1, 5⟩, [0, 1]⟩)
    (t0 := (Finsupp.single 0 1, 1)) (t1 := (Finsupp.single 1 1, 1)) ⟨h1, e0⟩ ⟨h1, e1⟩ (by
      intro h
      have := DFunLike.congr_fun h (0 : Fin 2)
      simp at this)).2
  have : r = exP := by
    have h : ctor2 IntMod.cops ⟨⟨1, 5⟩, [1, 0]⟩ ⟨⟨1, 5⟩, [0, 1]⟩ = ok exP := by decide +kernel
    rw [h] at hr
    injection hr with hr
    exact hr.symm
  rw [← this]
  exact hc

end MvPolys
end Spffl.Props
