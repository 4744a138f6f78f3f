/-
Proofs about `homogenize` of polynomials in several variables.
-/
import Verif.Proof.MvPoly

namespace Spffl
open Res MvPolynomial
namespace MvPoly

/-- the exponents with one more at the end -/
noncomputable def snocE {n : ℕ} (e : Fin n →₀ ℕ) (k : ℕ) : Fin (n + 1) →₀ ℕ := Finsupp.equivFunOnFinite.symm (Fin.snoc (α := fun _ => ℕ) e k)

theorem snocE_castSucc {n : ℕ} (e : Fin n →₀ ℕ) (k : ℕ) (i : Fin n) : snocE e k i.castSucc = e i := by simp [snocE]

theorem snocE_last {n : ℕ} (e : Fin n →₀ ℕ) (k : ℕ) : snocE e k (Fin.last n) = k := by simp [snocE]

theorem snocE_degree {n : ℕ} (e : Fin n →₀ ℕ) (k : ℕ) : (snocE e k).degree = e.degree + k := by
  rw [Finsupp.degree_eq_sum, Finsupp.degree_eq_sum, Fin.sum_univ_castSucc, snocE_last]
  simp [snocE_castSucc]

theorem snocE_inj {n : ℕ} {e e' : Fin n →₀ ℕ} {k k' : ℕ} (h : snocE e k = snocE e' k') : e = e' := by
  ext i
  rw [← snocE_castSucc e k i, h, snocE_castSucc]

theorem snocE_eval {n : ℕ} {R : Type} [CommRing R] (e : Fin n →₀ ℕ) (k : ℕ) (c : R) :
    aeval (Fin.snoc (α := fun _ => MvPolynomial (Fin n) R) X 1) (monomial (snocE e k) c) = monomial e c := by
  rw [aeval_monomial, monomial_eq, Finsupp.prod_fintype _ _ (by simp), Finsupp.prod_fintype _ _ (by simp), Fin.prod_univ_castSucc]
  simp [snocE_castSucc, snocE_last]

section
variable {α R : Type} [CommRing R] {rep : α → R → Prop} {n B : ℕ} {p : List (Mono α)} {F : MvPolynomial (Fin n) R}

omit [CommRing R] in
theorem Ex.degree_le {l : List Int} {e : Fin n →₀ ℕ} (h : Ex B l e) : e.degree ≤ n * B := by
  rw [Finsupp.degree_eq_sum]
  calc ∑ i, e i ≤ ∑ _i : Fin n, B := Finset.sum_le_sum fun i _ => (h.2 i).le
    _ = n * B := by simp

omit [CommRing R] in
theorem homogenizeLoop_ok (hB : n * B < 2 ^ 31) (hn : n < 8) {d : ℕ} (hd : d ≤ n * B) {L : List ((Fin n →₀ ℕ) × R)}
    (hp : List.Forall₂ (MRep rep B) p L) (hL : ∀ t ∈ L, t.1.degree ≤ d) :
    (homogenizeLoop (d : ℤ) p).Ok fun r => List.Forall₂ (MRep rep (B + n * B + 1)) r (L.map fun t => (snocE t.1 (d - t.1.degree), t.2)) := by
  induction hp with
  | nil => exact ⟨[], rfl, List.Forall₂.nil⟩
  | @cons m t p L hm _ ih =>
    obtain ⟨r, e1, e2⟩ := ih fun t ht => hL t (List.mem_cons_of_mem _ ht)
    have ht := hL t List.mem_cons_self
    have hlen : m.expts.length = n := by rw [hm.2.1]; simp
    rw [homogenizeLoop, monoHomogenize, if_neg (by omega), monoDegree_ok hB hm.2, ok_bind, isub, chk_ok (by unfold InInt; omega), ok_bind, ok_bind,
      e1, ok_bind]
    refine ⟨_, rfl, List.Forall₂.cons ⟨hm.1, ?_, ?_⟩ e2⟩
    · show m.expts ++ _ = _
      rw [hm.2.1, List.ofFn_succ', List.concat_eq_append]
      simp only [snocE_castSucc, snocE_last]
      rw [Nat.cast_sub ht]
    · intro i
      refine Fin.lastCases ?_ (fun i => ?_) i
      · rw [snocE_last]; omega
      · rw [snocE_castSucc]; have := hm.2.2 i; omega

/-- A polynomial that is not homogeneous becomes one of the same degree in one more variable; with 1 for that variable it is the old one. -/
theorem homogenize_ok (hB : n * B < 2 ^ 31) (hn : n < 8) {L : List ((Fin n →₀ ℕ) × R)} (hp : List.Forall₂ (MRep rep B) p L) (hF : Den L F)
    (h0 : ∀ t ∈ L, t.2 ≠ 0) (hnh : ¬ ∃ d, F.IsHomogeneous d) :
    (homogenize p).Ok fun r => ∃ (G : MvPolynomial (Fin (n + 1)) R) (L' : List ((Fin (n + 1) →₀ ℕ) × R)),
      List.Forall₂ (MRep rep (B + n * B + 1)) r L' ∧ Den L' G ∧ (∀ t ∈ L', t.2 ≠ 0) ∧ G.IsHomogeneous F.totalDegree ∧
      aeval (Fin.snoc (α := fun _ => MvPolynomial (Fin n) R) X 1) G = F := by
  unfold homogenize
  obtain ⟨b, e1, e2⟩ := is_homogeneous_ok hB hp hF h0
  have hb : b = false := by
    cases b with
    | false => rfl
    | true => exact absurd (e2.1 rfl) hnh
  subst hb
  rw [e1, ok_bind, if_neg (by simp), find_degree_ok hB hp hF h0, ok_bind]
  have hdeg : ∀ t ∈ L, t.1.degree ≤ F.totalDegree := by
    intro t ht
    have hm : t.1 ∈ F.support := by rw [mem_support_iff, hF.2.1 t ht]; exact h0 t ht
    have := le_totalDegree hm
    rwa [Finsupp.degree]
  have hd : F.totalDegree ≤ n * B := by
    rw [totalDegree, Finset.sup_le_iff]
    intro e he
    have : e ∈ L.map Prod.fst := by
      by_contra h
      exact (mem_support_iff.1 he) (hF.2.2 e h)
    obtain ⟨t, ht, rfl⟩ := List.mem_map.1 this
    obtain ⟨i, hi, rfl⟩ := List.getElem_of_mem ht
    have := (List.forall₂_iff_get.1 hp).2 i (by rw [hp.length_eq]; exact hi) hi
    exact this.2.degree_le
  obtain ⟨r, k1, k2⟩ := homogenizeLoop_ok hB hn hd hp hdeg
  have hnd : ((L.map fun t => (snocE t.1 (F.totalDegree - t.1.degree), t.2)).map Prod.fst).Nodup := by
    have := hF.1
    rw [List.Nodup, List.pairwise_map] at this
    rw [List.Nodup, List.pairwise_map, List.pairwise_map]
    exact this.imp fun h e => h (snocE_inj e)
  refine ⟨r, k1, _, _, k2, den_sum _ hnd, ?_, ?_, ?_⟩
  · intro t ht
    obtain ⟨u, hu, rfl⟩ := List.mem_map.1 ht
    exact h0 u hu
  · rw [List.map_map]
    rw [← mem_homogeneousSubmodule]
    refine list_sum_mem fun f hf => ?_
    obtain ⟨t, ht, rfl⟩ := List.mem_map.1 hf
    rw [mem_homogeneousSubmodule]
    exact isHomogeneous_monomial _ (by rw [snocE_degree]; have := hdeg t ht; omega)
  · rw [map_list_sum, List.map_map, List.map_map]
    simp only [Function.comp_def, snocE_eval]
    exact hF.sum.symm
end
end MvPoly
end Spffl
