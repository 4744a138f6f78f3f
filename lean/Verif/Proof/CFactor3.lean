/-
Shared by fp_poly_t and f2n_poly_t: growing a default constructed polynomial, and counting up.
-/
import Verif.Proof.CFactor2

set_option linter.unusedSectionVars false

namespace Spffl
open Res Polynomial
open CPoly (PRep Holds)

namespace CFac
variable {α K : Type} [Field K] {O : CoefOps α} {rep : α → K → Prop} {kv : K → ℕ} {ord : K → K → Prop}

/-- `set_coeff` on a default constructed polynomial: the new top coefficient is not recognised as zero. -/
theorem dflt_grow {inv z0 zero : α} (h1 : O.psub inv 0 = ok z0) (h2 : ∀ c, rep c 0 → O.eq c z0 = ok false) (hz : rep zero 0) {d : ℕ} (hd : 0 < d) :
    (CPoly.set_coeff O ⟨0, [inv]⟩ d zero).Sat False (fun r => r.degree = d ∧ r.coeffs.length = d + 1 ∧ At r.coeffs d (fun e => rep e 0)) := by
  unfold CPoly.set_coeff
  rw [if_neg (by omega), show rd [inv] 0 = ok inv from rfl, ok_bind, h1, ok_bind, if_pos (by simpa using hd), Int.toNat_natCast]
  unfold CPoly.set_coeff_grow
  refine (fillUp_sat (f := fun i _ => rd [inv] i) (P := fun _ _ => True) (by omega) (by simp [CPoly.new]) fun i s _ hi _ _ _ => ?_).bind fun cs hcs => ?_
  · obtain rfl : i = 0 := by simp only at hi; omega
    exact trivial
  obtain ⟨l1, -, -⟩ := hcs
  refine (fillUp_sat (f := fun _ _ => ok z0) (P := fun _ _ => True) (by simp only; omega) (by rw [l1]; simp [CPoly.new]) fun i s _ hi _ _ _ => trivial).bind fun ds hds => ?_
  obtain ⟨l2, -, -⟩ := hds
  have hl : ds.length = d + 1 := by rw [l2, l1]; simp [CPoly.new]
  rw [wr_ok (by omega), ok_bind, h2 zero hz, ok_bind, if_neg (by simp), Sat_ok]
  exact ⟨rfl, by rw [List.length_set, hl], at_set_self (by omega) hz⟩

/-- setting all coefficients to zero -/
theorem zero_fill {zero : α} (hz : rep zero 0) {d : ℕ} {cs : List α} (hl : cs.length = d + 1) (hd : At cs d (fun e => rep e 0)) :
    (forDown d 0 cs fun di cs => wr cs di zero).Sat False (fun r => r.length = d + 1 ∧ ∀ j, j < d + 1 → At r j (fun e => rep e 0)) := by
  refine (forDown_sat (fun i (s : List α) => s.length = d + 1 ∧ ∀ j, i ≤ j → j < d + 1 → At s j (fun e => rep e 0)) (Nat.zero_le d) ⟨hl, fun j h1 h2 => ?_⟩ ?_).mono
    fun r hr => ⟨hr.1, fun j hj => hr.2 j (Nat.zero_le _) hj⟩
  · obtain rfl : j = d := by omega
    exact hd
  · intro i s _ hi ⟨h1, h2⟩
    refine (wr_sat (by omega)).mono fun r hr => ?_
    subst hr
    refine ⟨by rw [List.length_set, h1], fun j hj1 hj2 => ?_⟩
    by_cases e : i = j
    · subst e; exact at_set_self (by omega) hz
    · exact (h2 j (by omega) hj2).congr (List.getElem?_set_ne e)

/-- what the increment loops deliver: the coefficients of `f + 1` in the counting order, or all coefficients wrapped -/
def IncrPost (rep : α → K → Prop) (kv : K → ℕ) (q : ℕ) (f : K[X]) (r : Bool × List α) : Prop :=
  if r.1 then ∃ g, Holds rep r.2 (f.natDegree + 1) g ∧ g.natDegree = f.natDegree ∧ polyKey q kv g = polyKey q kv f + 1
  else Holds rep r.2 (f.natDegree + 1) 0 ∧ polyKey q kv f + 1 = q ^ (f.natDegree + 1)

/-- state of the loops at coefficient `i` -/
structure IncrInv (rep : α → K → Prop) (kv : K → ℕ) (q : ℕ) (f : K[X]) (i : ℕ) (cs : List α) : Prop where
  low : ∀ j, j < i → At cs j (fun e => rep e 0)
  high : ∀ j, i ≤ j → j < f.natDegree + 1 → At cs j (fun e => rep e (f.coeff j))
  top : ∀ j, j < i → kv (f.coeff j) = q - 1

theorem incr_stop {q : ℕ} (D : Digits q kv) {f : K[X]} {i : ℕ} {cs : List α} (h : IncrInv rep kv q f i cs) (hi : i < f.natDegree + 1)
    {c : α} {y : K} (hc : rep c y) (hy : kv y = kv (f.coeff i) + 1) : IncrPost rep kv q f (true, cs.set i c) := by
  unfold IncrPost
  simp only [if_true]
  obtain ⟨g, hg⟩ := exists_coeffs (fun j => if j < i then (0 : K) else if j = i then y else f.coeff j) (f.natDegree + 1)
  have hy0 : y ≠ 0 := by rintro rfl; rw [D.zero] at hy; omega
  have hle : g.natDegree ≤ f.natDegree := by
    rw [natDegree_le_iff_coeff_eq_zero]
    intro j hj; rw [hg, if_neg (by omega)]
  have hdeg : g.natDegree = f.natDegree := by
    refine le_antisymm hle ?_
    rcases Nat.eq_zero_or_pos f.natDegree with h0 | h0
    · omega
    · refine le_natDegree_of_ne_zero ?_
      rw [hg, if_pos (by omega), if_neg (by omega)]
      split
      · exact hy0
      · rw [coeff_natDegree]
        exact leadingCoeff_ne_zero.mpr (by rintro rfl; simp at h0)
  refine ⟨g, fun j hj => ?_, hdeg, ?_⟩
  · show At (cs.set i c) j _
    rw [hg, if_pos hj]
    have hlen := (h.high i le_rfl hi).lt
    by_cases e : i = j
    · subst e; rw [if_neg (by omega), if_pos rfl]; exact at_set_self hlen hc
    · have e' : (cs.set i c)[j]? = cs[j]? := List.getElem?_set_ne e
      by_cases e2 : j < i
      · rw [if_pos e2]; exact (h.low j e2).congr e'
      · rw [if_neg e2, if_neg (Ne.symm e)]; exact (h.high j (by omega) hj).congr e'
  · rw [D.ext (f := g) (n := f.natDegree + 1) (by omega), D.ext (f := f) (n := f.natDegree + 1) (by omega)]
    refine digitSum_incr D.pos h.top (fun j hj => ?_) ?_ _ hi (fun j h1 h2 => ?_)
    · rw [hg, if_pos (by omega), if_pos hj, D.zero]
    · rw [hg, if_pos hi, if_neg (by omega), if_pos rfl, hy]
    · rw [hg, if_pos h2, if_neg (by omega), if_neg (by omega)]

theorem incr_go {q : ℕ} {f : K[X]} {i : ℕ} {cs : List α} (h : IncrInv rep kv q f i cs) (hi : i < f.natDegree + 1)
    {c : α} (hc : rep c 0) (hy : kv (f.coeff i) = q - 1) : IncrInv rep kv q f (i + 1) (cs.set i c) where
  low j hj := by
    by_cases e : i = j
    · subst e; exact at_set_self (h.high i le_rfl hi).lt hc
    · exact (h.low j (by omega)).congr (List.getElem?_set_ne e)
  high j h1 h2 := (h.high j (by omega) h2).congr (List.getElem?_set_ne (by omega))
  top j hj := by
    by_cases e : i = j
    · subst e; exact hy
    · exact h.top j (by omega)

theorem incr_end {q : ℕ} (D : Digits q kv) {f : K[X]} {cs : List α} (h : IncrInv rep kv q f (f.natDegree + 1) cs) : IncrPost rep kv q f (false, cs) := by
  unfold IncrPost
  simp only [Bool.false_eq_true, if_false]
  exact ⟨fun j hj => by rw [coeff_zero]; exact h.low j hj, digitSum_max D.pos h.top⟩

/-- the new leading coefficient after all others have wrapped -/
theorem incr_grow (H : CoefRef False O rep ord) {d : ℕ} {cs : List α} (hc : Holds rep cs (d + 1) (0 : K[X])) {one : α} (h1 : rep one 1) :
    (CPoly.set_coeff O ⟨d, cs⟩ ((d + 1 : ℕ) : Int) one).Sat False (fun r => PRep rep r (X ^ (d + 1))) := by
  unfold CPoly.set_coeff
  rw [if_neg (by omega)]
  refine (rd_sat (hc 0 (by omega))).bind fun c0 h0 => (H.psub 0 (by decide) h0).bind fun z hz => ?_
  rw [Int.cast_zero] at hz
  rw [if_pos (by simp), Int.toNat_natCast]
  unfold CPoly.set_coeff_grow
  refine (fillUp_sat (f := fun i _ => rd cs i) (P := fun i e => rep e 0) (by omega)
      (by simp [CPoly.new]) fun i s _ hi _ _ _ => ?_).bind fun ds hds => ?_
  · have := hc i hi
    rw [coeff_zero] at this; exact rd_sat this
  obtain ⟨l1, l2, -⟩ := hds
  rw [forUp_self (by simp), ok_bind, wr_ok (by rw [l1]; simp [CPoly.new]), ok_bind]
  refine (H.eq h1 hz).bind fun e he => ?_
  cases e with
  | true => exact absurd (he.mp rfl) one_ne_zero
  | false =>
    rw [if_neg (by simp), Sat_ok]
    refine ⟨by simp, fun i hi => ?_⟩
    simp only at hi
    rw [coeff_X_pow]
    by_cases e : d + 1 = i
    · subst e; rw [if_pos rfl]; exact at_set_self (by rw [l1]; simp [CPoly.new]) h1
    · rw [if_neg (Ne.symm e)]
      exact (l2 i (by omega) (by simp only; omega)).congr (List.getElem?_set_ne e)

theorem incr_finish (H : CoefRef False O rep ord) {q : ℕ} (D : Digits q kv) (hk1 : kv 1 = 1) {a : CPoly α} {f : K[X]} (ha : PRep rep a f) {one : α} (h1 : rep one 1)
    {s : Bool × List α} (hs : IncrPost rep kv q f s) :
    (if s.1 then ok ⟨a.degree, s.2⟩ else CPoly.set_coeff O ⟨a.degree, s.2⟩ ((a.degree + 1 : ℕ) : Int) one).Sat False
      (fun r => ∃ g, PRep rep r g ∧ polyKey q kv g = polyKey q kv f + 1) := by
  unfold IncrPost at hs
  split
  · rename_i hb
    rw [if_pos hb] at hs
    obtain ⟨g, g1, g2, g3⟩ := hs
    rw [Sat_ok]
    exact ⟨g, ⟨g2.trans ha.deg, by rw [← ha.deg]; exact g1⟩, g3⟩
  · rename_i hb
    rw [if_neg hb, ha.deg] at hs
    refine (incr_grow H hs.1 h1).mono fun r hr => ⟨_, hr, ?_⟩
    rw [D.key_X_pow hk1, hs.2]

end CFac
end Spffl
