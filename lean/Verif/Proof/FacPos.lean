/-
Factor lists with positive multiplicities: what the factorization routines maintain.
-/
import Verif.Proof.FacInfo

set_option linter.unusedSectionVars false

namespace Spffl
open Res
namespace FacInfo
variable {α R K : Type} [CommRing R] [LinearOrder K] {O : EltOps α} {rep : α → R → Prop}
  {D : R → Prop} {key : R → K}

/-- The list denotes the multiset `M` (and unit `u`), is strictly sorted, and all multiplicities are positive. -/
def MsP (rep : α → R → Prop) (key : R → K) (f : FacInfo α) (M : Multiset R) (u : Option R) : Prop :=
  ∃ l, Den rep f l u ∧ Sorted key l ∧ toMs l = M ∧ ∀ q ∈ l, 0 < q.2

theorem msp_empty : MsP rep key (empty : FacInfo α) 0 none := by
  refine ⟨[], den_empty, by simp [Sorted], by simp [toMs], by simp⟩

theorem msp_insert (H : FacRef O rep D key) {f : FacInfo α} {M : Multiset R} {u : Option R}
    (hf : MsP rep key f M u) {a : α} {e : R} (ha : rep a e) {k : ℕ} (hk : 0 < k)
    (hcard : (M.card : Int) + k ≤ INT_MAX) :
    (insert_factor O f a k).Ok (fun f' => MsP rep key f' (M + Multiset.replicate k e) u) := by
  obtain ⟨l, hl, hs, rfl, hp⟩ := hf
  refine (insert_factor_ok H hl ha k hcard).mono fun f' hf' => ?_
  exact ⟨_, hf', sorted_insA H.key_inj e k l hs, by rw [toMs_insA]; abel, insA_pos e k hk l hp⟩

theorem msp_insert_one (H : FacRef O rep D key) {f : FacInfo α} {M : Multiset R} {u : Option R}
    (hf : MsP rep key f M u) {a : α} {e : R} (ha : rep a e) (hcard : (M.card : Int) + 1 ≤ INT_MAX) :
    (insert_factor O f a 1).Ok (fun f' => MsP rep key f' (M + {e}) u) := by
  refine (msp_insert H hf ha (k := 1) one_pos (by simpa using hcard)).mono fun f' hf' => ?_
  simpa using hf'

theorem msp_merge_factors (H : FacRef O rep D key) :
    ∀ (g : List (α × Int)) (l : List (R × ℕ)) (f : FacInfo α) (M : Multiset R) (u : Option R),
    MsP rep key f M u →
    List.Forall₂ (PRel rep) g l → (∀ q ∈ l, 0 < q.2) →
    (M.card : Int) + (toMs l).card ≤ INT_MAX →
    (merge_factors O f g).Ok (fun f' => MsP rep key f' (M + toMs l) u)
  | [], [], f, M, u, hf, _, _, _ => by simpa [merge_factors, toMs] using hf
  | p :: g, q :: l, f, M, u, hf, hg, hp, hc => by
    cases hg with
    | cons h1 h2 =>
    have hms : toMs (q :: l) = Multiset.replicate q.2 q.1 + toMs l := by simp [toMs]
    rw [hms] at hc ⊢
    simp only [Multiset.card_add, Multiset.card_replicate, Nat.cast_add] at hc
    unfold merge_factors
    rw [List.foldlM_cons, h1.2]
    refine (msp_insert H hf h1.1 (hp q (by simp)) (by omega)).bind fun f' hf' => ?_
    have := msp_merge_factors H g l f' _ u hf' h2 (fun q hq => hp q (by simp [hq])) (by simp; omega)
    rw [← add_assoc]; exact this

theorem msp_merge (H : FacRef O rep D key) {f g : FacInfo α} {M N : Multiset R} {u : Option R}
    (hf : MsP rep key f M u) (hg : MsP rep key g N none)
    (hc : (M.card : Int) + N.card ≤ INT_MAX) :
    (merge O f g).Ok (fun f' => MsP rep key f' (M + N) u) := by
  obtain ⟨l, hl, -, rfl, hp⟩ := hg
  unfold merge
  refine (msp_merge_factors H g.facs l f M u hf hl.1 hp hc).bind fun f' hf' => ?_
  have hgu := hl.2
  generalize hgu' : g.unit = gu at hgu ⊢
  cases gu with
  | none => simpa using hf'
  | some b => cases hgu

theorem msp_exp_all (H : FacRef O rep D key) {f : FacInfo α} {M : Multiset R}
    (hf : MsP rep key f M none) {k : ℕ} (hk : 0 < k) (hk' : (k : Int) ≤ INT_MAX)
    (hc : (k : Int) * M.card ≤ INT_MAX) :
    (exp_all O f k).Ok (fun f' => MsP rep key f' (k • M) none) := by
  obtain ⟨l, hl, hs, rfl, hp⟩ := hf
  unfold exp_all
  have hunit : exp_unit O f.unit k = ok none := by
    unfold exp_unit
    have hfu := hl.2
    generalize f.unit = fu at hfu ⊢
    cases fu with
    | none => rfl
    | some a => cases hfu
  rw [hunit, ok_bind]
  refine (mapM_imul_ok f.facs l k hl.1 ?_).bind fun g hg => ?_
  · intro q hq
    have hle := le_card_toMs hq
    have h2 : ((q.2 * k : ℕ) : Int) ≤ (k : Int) * (toMs l).card := by
      rw [mul_comm]; push_cast
      exact mul_le_mul_of_nonneg_left (by exact_mod_cast hle) (by positivity)
    omega
  · simp only [Ok_ok]
    refine ⟨_, ⟨hg, Option.Rel.none⟩, ?_, toMs_map_mul l k, ?_⟩
    · unfold Sorted at hs ⊢
      rw [List.pairwise_map]
      exact hs
    · intro q hq
      obtain ⟨q', h1, rfl⟩ := List.mem_map.mp hq
      exact Nat.mul_pos (hp q' h1) hk

/-- get_num_factors is the number of factors with multiplicity. -/
theorem num_factors_ok {f : FacInfo α} {M : Multiset R} {u : Option R} (hf : MsP rep key f M u)
    (hc : (M.card : Int) ≤ INT_MAX) : get_num_factors f = ok (M.card : Int) := by
  obtain ⟨l, hl, -, rfl, -⟩ := hf
  unfold get_num_factors
  have : ∀ (g : List (α × Int)) (l : List (R × ℕ)) (s : ℕ), List.Forall₂ (PRel rep) g l →
      (s : Int) + (toMs l).card ≤ INT_MAX →
      g.foldlM (fun rv p => iadd rv p.2) (s : Int) = ok ((s : Int) + (toMs l).card) := by
    intro g
    induction g with
    | nil => intro l s h _; cases h; simp [toMs]
    | cons p g ih =>
      intro l s h hc
      cases h with
      | @cons _ q _ l h1 h2 =>
      have hms : (toMs (q :: l)).card = q.2 + (toMs l).card := by simp [toMs]
      rw [hms] at hc ⊢
      rw [List.foldlM_cons, h1.2]
      rw [show iadd (s : Int) ((q.2 : ℕ) : Int) = chk (s + q.2) from rfl, chk_ok (by unfold InInt; unfold INT_MAX at hc; omega), ok_bind]
      have := ih l (s + q.2) h2 (by push_cast at hc ⊢; omega)
      push_cast at this ⊢
      rw [this]; congr 1; omega
  simpa using this f.facs l 0 hl.1 (by simpa using hc)

end FacInfo
end Spffl
