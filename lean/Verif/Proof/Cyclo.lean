/-
Proofs about the model of q_cyclotomic: the recursion and its memo table.
-/
import Verif.Model.Cyclo
import Verif.Proof.IntRat
import Verif.Proof.CPoly
import Mathlib.RingTheory.Polynomial.Cyclotomic.Basic

namespace Spffl
open Res
open Polynomial
open CPoly

namespace Cyclo

/-- the dividend when the loop of `get_cyclo_qpoly(m)` reaches `d` -/
noncomputable def P (R : Type) [CommRing R] (m d : ℕ) : R[X] := ∏ i ∈ m.divisors.filter (d ≤ ·), cyclotomic i R

section P
variable {R : Type} [CommRing R] {m d : ℕ}

theorem P_one (hm : 0 < m) : P R m 1 = X ^ m - 1 := by
  rw [← prod_cyclotomic_eq_X_pow_sub_one hm]
  unfold P
  congr 1
  apply Finset.filter_true_of_mem
  intro i hi; exact Nat.pos_of_mem_divisors hi

theorem P_dvd (hm : 0 < m) (hd : d ∣ m) : P R m d = P R m (d + 1) * cyclotomic d R := by
  unfold P
  have : m.divisors.filter (d ≤ ·) = insert d (m.divisors.filter (d + 1 ≤ ·)) := by
    ext i
    simp only [Finset.mem_filter, Finset.mem_insert, Nat.mem_divisors]
    constructor
    · rintro ⟨h1, h2⟩
      rcases Nat.eq_or_lt_of_le h2 with h | h
      · exact Or.inl h.symm
      · exact Or.inr ⟨h1, h⟩
    · rintro (rfl | ⟨h1, h2⟩)
      · exact ⟨⟨hd, by omega⟩, le_rfl⟩
      · exact ⟨h1, by omega⟩
  rw [this, Finset.prod_insert (by simp), mul_comm]

theorem P_not (hd : ¬ d ∣ m) : P R m d = P R m (d + 1) := by
  unfold P
  congr 1
  ext i
  simp only [Finset.mem_filter, Nat.mem_divisors]
  refine and_congr_right fun h => ⟨fun h2 => ?_, fun h2 => by omega⟩
  rcases Nat.eq_or_lt_of_le h2 with h' | h'
  · subst h'; exact absurd h.1 hd
  · exact h'

theorem P_last (hm : 0 < m) : P R m m = cyclotomic m R := by
  unfold P
  have : m.divisors.filter (m ≤ ·) = {m} := by
    ext i
    simp only [Finset.mem_filter, Nat.mem_divisors, Finset.mem_singleton]
    constructor
    · rintro ⟨⟨h, _⟩, h2⟩; exact le_antisymm (Nat.le_of_dvd hm h) h2
    · rintro rfl; exact ⟨⟨dvd_rfl, by omega⟩, le_rfl⟩
  rw [this, Finset.prod_singleton]

theorem P_monic : (P R m d).Monic := monic_prod_of_monic _ _ fun i _ => cyclotomic.monic i R

end P

variable {U : Prop} {R : Type} [CommRing R] [Nontrivial R] {rep : IntRat → R → Prop} {ord : R → R → Prop}

/-- every division carried out for `n` and its divisors is exact and gives the next dividend -/
def Divs (U : Prop) (rep : IntRat → R → Prop) (n : ℕ) : Prop :=
  ∀ m d, m ∣ n → d ∣ m → d < m → ∀ a b, PRep rep a (P R m d) → PRep rep b (cyclotomic d R) →
    (quot_and_rem IntRat.cops a b).Sat U (fun s => PRep rep s.1 (P R m (d + 1)) ∧ PRep rep s.2 0)

/-- every remembered polynomial is the one that would be computed -/
def Valid (rep : IntRat → R → Prop) (m : Memo) : Prop :=
  m.length = 17 ∧ ∀ k q, m[k]? = some (some q) → PRep rep q (cyclotomic k R)

theorem valid_init : Valid rep Memo.init := by
  refine ⟨rfl, fun k q h => ?_⟩
  unfold Memo.init at h
  rw [List.getElem?_replicate] at h
  split at h <;> simp at h

theorem lookup_ok {m : Memo} (hm : Valid rep m) (n : ℕ) :
    (lookup m n).Ok (fun e => ∀ q, e = some q → PRep rep q (cyclotomic n R)) := by
  unfold lookup
  split
  · have hl : n < m.length := by rw [hm.1]; omega
    have : rd m n = ok m[n] := by simp [rd, hl]
    rw [this, Ok_ok]
    intro q hq
    exact hm.2 n q (by rw [List.getElem?_eq_getElem hl, hq])
  · rw [Ok_ok]; intro q hq; simp at hq

theorem remember_ok {m : Memo} (hm : Valid rep m) {n : ℕ} {q : QPoly} (hq : PRep rep q (cyclotomic n R)) :
    (remember m n q).Ok (Valid rep) := by
  unfold remember
  split
  · rw [wr_ok (by rw [hm.1]; omega), Ok_ok]
    refine ⟨by rw [List.length_set]; exact hm.1, fun k r h => ?_⟩
    rw [List.getElem?_set] at h
    split at h
    · rename_i e; subst e
      split at h
      · simp at h; subst h; exact hq
      · simp at h
    · exact hm.2 k r h
  · rw [Ok_ok]; exact hm

theorem qzero_eq : qzero = ok ⟨0, [⟨0, 1⟩]⟩ := by decide +kernel
theorem one_eq : IntRat.ofInt 1 = ok ⟨1, 1⟩ := by decide +kernel
theorem neg_one_eq : IntRat.ofInt (-1) = ok ⟨-1, 1⟩ := by decide +kernel

theorem prep_zero (h0 : rep ⟨0, 1⟩ 0) : PRep rep (⟨0, [⟨0, 1⟩]⟩ : QPoly) (0 : R[X]) :=
  ⟨by simp, fun i hi => by
    have : i = 0 := by simp at hi; omega
    subst this; exact ⟨_, rfl, by simpa using h0⟩⟩

theorem binomial_sat (H : CoefCmp U IntRat.cops rep ord) (h0 : rep ⟨0, 1⟩ 0) (h1 : rep ⟨1, 1⟩ 1)
    (hn1 : rep ⟨-1, 1⟩ (-1)) {n : ℕ} (hn : 0 < n) :
    (binomial ⟨1, 1⟩ n ⟨-1, 1⟩ 0).Sat U (fun r => PRep rep r (X ^ n - 1 : R[X])) := by
  unfold binomial
  rw [qzero_eq, ok_bind]
  refine (set_coeff_cmp H (prep_zero h0) n h1).bind fun r hr => ?_
  refine (set_coeff_cmp H hr 0 hn1).mono fun r hr => ?_
  have : (((0 : R[X]).update n 1).update 0 (-1)) = X ^ n - 1 := by
    ext i
    rw [coeff_update_apply, coeff_update_apply, coeff_sub, coeff_X_pow, coeff_one, coeff_zero]
    by_cases e : i = 0
    · subst e; rw [if_pos rfl, if_neg (by omega), if_pos rfl]; ring
    · simp [e]
  rwa [this] at hr

theorem quotInPlace_sat (H : CoefCmp U IntRat.cops rep ord) {n m d : ℕ} (hD : Divs U rep n) (hmn : m ∣ n)
    (hdm : d ∣ m) (hlt : d < m) {a b : QPoly} (ha : PRep rep a (P R m d)) (hb : PRep rep b (cyclotomic d R)) :
    (quotInPlace a b).Sat U (fun s => PRep rep s.1 (P R m (d + 1)) ∧ PRep rep s.2 0) := by
  unfold quotInPlace
  refine (hD m d hmn hdm hlt a b ha hb).bind fun s hs => ?_
  refine (rd_sat ha.c0).bind fun c0 hc => (H.sub0 hc).bind fun z hz => ?_
  refine (eqConst_cmp H ha hz).bind fun e he => ?_
  have hef : e = false := by
    cases e with
    | false => rfl
    | true => exact absurd (he.mp rfl) P_monic.ne_zero
  rw [hef, if_neg (by simp), if_neg, Sat_ok]
  · exact hs
  · rw [← ha.deg, ← hb.deg, P_dvd (by omega) hdm, P_monic.natDegree_mul (cyclotomic.monic d R)]; omega

theorem step_sat (H : CoefCmp U IntRat.cops rep ord) (h0 : rep ⟨0, 1⟩ 0) {n : ℕ} (hn : 0 < n)
    (hmax : n ≤ 2147483647) (hD : Divs U rep n) {rec : Int → Memo → Res (QPoly × Memo)}
    (hrec : ∀ d m, 0 < d → d ∣ n → d < n → Valid rep m →
      (rec d m).Sat U (fun s => PRep rep s.1 (cyclotomic d R) ∧ Valid rep s.2))
    {d : ℕ} (hd0 : 0 < d) (hdn : d < n) {s : QPoly × Memo} (hs : PRep rep s.1 (P R n d) ∧ Valid rep s.2) :
    (step rec n d s).Sat U (fun t => PRep rep t.1 (P R n (d + 1)) ∧ Valid rep t.2) := by
  unfold step
  rw [imod_nonneg_ok (by omega) (by omega) (by omega), ok_bind]
  split
  · rename_i h
    rw [Sat_ok, ← P_not (d := d)]
    · exact hs
    · rw [Nat.dvd_iff_mod_eq_zero]; intro e; apply h; exact_mod_cast congrArg (Nat.cast (R := ℤ)) e
  · rename_i h
    have hdvd : d ∣ n := by
      rw [Nat.dvd_iff_mod_eq_zero]; push_neg at h; exact_mod_cast h
    have ht : (fetch rec d s.2).Sat U (fun t => PRep rep t.1 (cyclotomic d R) ∧ Valid rep t.2) := by
      unfold fetch
      refine (lookup_ok hs.2 d).sat.bind fun e he => ?_
      cases e with
      | some q => exact ⟨he q rfl, hs.2⟩
      | none => exact hrec d s.2 hd0 hdvd hdn hs.2
    refine ht.bind fun t ⟨ht1, ht2⟩ => ?_
    refine (quotInPlace_sat H hD dvd_rfl hdvd hdn hs.1 ht1).bind fun qr ⟨h1, h2⟩ => ?_
    rw [qzero_eq, ok_bind]
    refine (eq_cmp H h2 (prep_zero h0)).bind fun z hz => ?_
    rw [if_pos (hz.mpr rfl), Sat_ok]
    exact ⟨h1, ht2⟩

theorem getCyclo_sat (H : CoefCmp U IntRat.cops rep ord) (h0 : rep ⟨0, 1⟩ 0) (h1 : rep ⟨1, 1⟩ 1)
    (hn1 : rep ⟨-1, 1⟩ (-1)) : ∀ (k n : ℕ) (m : Memo), 0 < n → n ≤ 2147483647 → n < k → Divs U rep n → Valid rep m →
      (getCyclo k n m).Sat U (fun s => PRep rep s.1 (cyclotomic n R) ∧ Valid rep s.2)
  | 0, _, _, _, _, h, _, _ => by omega
  | k + 1, n, m, hn, hmax, hk, hD, hm => by
    unfold getCyclo
    rw [if_neg (by omega), Int.toNat_natCast]
    refine (lookup_ok hm n).sat.bind fun e he => ?_
    cases e with
    | some q => exact ⟨he q rfl, hm⟩
    | none =>
      dsimp only
      rw [one_eq, neg_one_eq]
      simp only [ok_bind]
      split
      · rename_i h
        have : n = 1 := by exact_mod_cast h
        subst this
        refine (linear_cmp H h1 hn1).bind fun rv hrv => ?_
        have e : (C (1 : R) * X + C (-1)) = cyclotomic 1 R := by rw [cyclotomic_one]; simp [sub_eq_add_neg]
        rw [e] at hrv
        refine (remember_ok hm hrv).sat.bind fun m' hm' => ?_
        exact ⟨hrv, hm'⟩
      · rename_i h
        refine (binomial_sat H h0 h1 hn1 hn).bind fun rv hrv => ?_
        rw [← P_one hn] at hrv
        refine (forUp_sat (fun d (s : QPoly × Memo) => PRep rep s.1 (P R n d) ∧ Valid rep s.2) hn ⟨hrv, hm⟩
          fun d s hd1 hd2 hs => step_sat H h0 hn hmax hD (fun e m' he hen hlt hm' => ?_) hd1 hd2 hs).bind fun s hs => ?_
        · exact getCyclo_sat H h0 h1 hn1 k e m' he (by omega) (by omega)
            (fun m d hmd => hD m d (hmd.trans hen)) hm'
        · rw [P_last hn] at hs
          refine (remember_ok hs.2 hs.1).sat.bind fun m' hm' => ?_
          exact ⟨hs.1, hm'⟩

end Cyclo
end Spffl
