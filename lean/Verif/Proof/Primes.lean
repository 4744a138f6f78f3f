import Verif.Proof.PrimeTable
import Verif.Proof.IntMath

namespace Spffl
open Res

theorem tableLoop_iff (n : Nat) (h1 : 1 < n) (hn : n < 2 ^ 31) :
    tableLoop n primes_16 = true ↔ n.Prime := by
  have key : ∀ (ts pre : List Nat), pre ++ ts = primes_16 → (∀ p ∈ pre, ¬ p ∣ n) →
      (tableLoop n ts = true ↔ n.Prime) := by
    intro ts
    induction ts with
    | nil =>
      intro pre hpre hnd
      rw [List.append_nil] at hpre
      simp only [tableLoop, true_iff]
      by_contra hnp
      have h2 : n.minFac ^ 2 ≤ n := Nat.minFac_sq_le_self (by omega) hnp
      have hlt : n.minFac < 65536 := by
        by_contra hc
        have : 65536 ^ 2 ≤ n.minFac ^ 2 := Nat.pow_le_pow_left (by omega) 2
        omega
      refine hnd n.minFac ?_ (Nat.minFac_dvd n)
      rw [hpre, mem_primes_16]
      exact ⟨hlt, Nat.minFac_prime (by omega)⟩
    | cons p ps ih =>
      intro pre hpre hnd
      have hpmem : p ∈ primes_16 := by rw [← hpre]; simp
      obtain ⟨hplt, hpp⟩ := (mem_primes_16 p).mp hpmem
      rw [tableLoop]
      split
      · rename_i hmod
        have hdvd : p ∣ n := Nat.dvd_of_mod_eq_zero hmod
        rw [beq_iff_eq]
        constructor
        · rintro rfl; exact hpp
        · intro hnp
          exact ((Nat.prime_dvd_prime_iff_eq hpp hnp).mp hdvd).symm
      · rename_i hmod
        have hndvd : ¬ p ∣ n := fun h => hmod (Nat.mod_eq_zero_of_dvd h)
        have hsq : p * p % 4294967296 = p * p := Nat.mod_eq_of_lt (by nlinarith)
        split
        · rename_i hgt
          rw [hsq] at hgt
          simp only [true_iff]
          by_contra hnp
          have h2 : n.minFac ^ 2 ≤ n := Nat.minFac_sq_le_self (by omega) hnp
          have hlt : n.minFac < p := by
            by_contra hc
            have : p ^ 2 ≤ n.minFac ^ 2 := Nat.pow_le_pow_left (by omega) 2
            nlinarith
          have hmem : n.minFac ∈ primes_16 := (mem_primes_16 _).mpr
            ⟨by omega, Nat.minFac_prime (by omega)⟩
          rw [← hpre, List.mem_append] at hmem
          rcases hmem with hmem | hmem
          · exact hnd _ hmem (Nat.minFac_dvd n)
          · have hs : (p :: ps).Pairwise (· < ·) := by
              have := sorted_primes_16
              rw [← hpre, List.pairwise_append] at this
              exact this.2.1
            rcases List.mem_cons.mp hmem with h | h
            · omega
            · have := (List.pairwise_cons.mp hs).1 _ h
              omega
        · refine ih (pre ++ [p]) (by rw [← hpre]; simp) ?_
          intro q hq
          rcases List.mem_append.mp hq with h | h
          · exact hnd q h
          · rw [List.mem_singleton.mp h]; exact hndvd
  exact key primes_16 [] rfl (by simp)

theorem primePre_eq {n : Int} (hn : InInt n) (hm : n ≠ INT_MIN) :
    primePre n = ok (if n = 0 then none else some (n.natAbs : Int)) := by
  unfold INT_MIN at hm
  have h1 := hn.1
  have h2 := hn.2
  unfold primePre
  rw [ineg, chk_ok (by constructor <;> omega), ok_bind]
  by_cases h0 : n = 0
  · simp [h0]
  · rw [if_neg (by omega), if_neg h0]
    split <;> (congr 2; omega)

/-! trial division -/

theorem trialLoop_ok (n : Nat) (hn : n ≤ 2147483647) (h3 : 3 < n) (hodd : n % 2 = 1) :
    ∀ (k d q : Nat), d % 2 = 1 → 3 ≤ d → n + 4 ≤ d + 2 * k →
      (∀ e, 2 ≤ e → e < d → ¬ e ∣ n) → ((d = 3 ∧ q = n) ∨ (5 ≤ d ∧ q = n / (d - 2) ∧ d ≤ n)) →
      trialLoop (n : Int) k (d : Int) (q : Int) = ok (decide n.Prime) := by
  intro k
  induction k with
  | zero => intro d q hd hd3 hk hnd hq; omega
  | succ k ih =>
    intro d q hd hd3 hk hnd hq
    rw [trialLoop]
    by_cases hle : d ≤ q
    · rw [if_pos (by omega)]
      have h3d : 3 * d ≤ n ∨ d = 3 := by
        rcases hq with h | ⟨h5, rfl, _⟩
        · exact Or.inr h.1
        · left
          have h1 : d * (d - 2) ≤ n := (Nat.le_div_iff_mul_le (by omega)).mp hle
          have h2 : d * 3 ≤ d * (d - 2) := Nat.mul_le_mul_left _ (by omega)
          omega
      have hdn : d < n := by omega
      have hdiv : ((n : Int).tdiv d) = ((n / d : ℕ) : Int) := by
        rw [Int.tdiv_eq_ediv_of_nonneg (by omega)]; simp
      have hle1 : n / d ≤ n := Nat.div_le_self _ _
      have hle2 : n / d * d ≤ n := Nat.div_mul_le_self _ _
      have i1 : InInt ((n / d : ℕ) : Int) := by
        generalize n / d = x at hle1 hle2
        constructor <;> omega
      have i2 : InInt (((n / d : ℕ) : Int) * (d : Int)) := by
        rw [← Int.natCast_mul]; constructor <;> omega
      rw [idiv, if_neg (by omega), hdiv, chk_ok i1, ok_bind, imul, chk_ok i2, ok_bind]
      by_cases heq : n = n / d * d
      · rw [if_pos (by exact_mod_cast heq)]
        have hdvd : d ∣ n := ⟨n / d, by rw [Nat.mul_comm]; exact heq⟩
        congr 1
        symm
        rw [decide_eq_false_iff_not]
        intro hp
        rcases (Nat.dvd_prime hp).mp hdvd with h | h <;> omega
      · rw [if_neg (by intro h; exact heq (by exact_mod_cast h)), iadd,
          chk_ok (by constructor <;> omega), ok_bind]
        have hdvd : ¬ d ∣ n := fun h => heq (Nat.div_mul_cancel h).symm
        have := ih (d + 2) (n / d) (by omega) (by omega) (by omega) (by
          intro e he1 he2
          rcases Nat.lt_or_ge e d with h | h
          · exact hnd e he1 h
          · rcases Nat.eq_or_lt_of_le h with rfl | h'
            · exact hdvd
            · rintro hdv
              have : 2 ∣ n := Dvd.dvd.trans ⟨e / 2, by omega⟩ hdv
              omega) (Or.inr ⟨by omega, by simp, by omega⟩)
        exact_mod_cast this
    · rw [if_neg (by omega)]
      congr 1
      symm
      rw [decide_eq_true_iff]
      rcases hq with h | ⟨h5, rfl, _⟩
      · omega
      by_contra hnp
      have h2 : n.minFac ^ 2 ≤ n := Nat.minFac_sq_le_self (by omega) hnp
      have h4 : n < d * (d - 2) := (Nat.div_lt_iff_lt_mul (by omega)).mp (by omega)
      have h6 : d * (d - 2) ≤ d ^ 2 := by rw [pow_two]; exact Nat.mul_le_mul_left _ (by omega)
      have hlt : n.minFac < d := by
        by_contra hc
        have : d ^ 2 ≤ n.minFac ^ 2 := Nat.pow_le_pow_left (by omega) 2
        omega
      exact hnd n.minFac (Nat.minFac_prime (by omega)).two_le hlt (Nat.minFac_dvd n)

theorem isprime_trial_ok {n : Int} (hn : InInt n) (hm : n ≠ INT_MIN) :
    isprime_trial n = ok (decide n.natAbs.Prime) := by
  have h1 := hn.1
  have h2 := hn.2
  unfold isprime_trial
  rw [primePre_eq hn hm, ok_bind]
  unfold INT_MIN at hm
  by_cases h0 : n = 0
  · subst h0; simp
    exact Nat.not_prime_zero
  · rw [if_neg h0]
    simp only
    set m := n.natAbs with hmdef
    have hm0 : m ≤ 2147483647 := by omega
    by_cases c1 : m ≤ 1
    · rw [if_pos (by omega)]
      congr 1; symm
      rw [decide_eq_false_iff_not]; intro hp; have := hp.two_le; omega
    · rw [if_neg (by omega)]
      by_cases c3 : m ≤ 3
      · rw [if_pos (by omega)]
        congr 1; symm; rw [decide_eq_true_iff]
        have : m = 2 ∨ m = 3 := by omega
        rcases this with h | h <;> rw [h]
        · exact Nat.prime_two
        · exact Nat.prime_three
      · rw [if_neg (by omega)]
        by_cases ce : m % 2 = 0
        · rw [if_pos (by omega)]
          congr 1; symm
          rw [decide_eq_false_iff_not]
          intro hp
          have := (Nat.prime_dvd_prime_iff_eq Nat.prime_two hp).mp (Nat.dvd_of_mod_eq_zero ce)
          omega
        · rw [if_neg (by omega)]
          have := trialLoop_ok m hm0 (by omega) (by omega) m 3 m (by omega) (by omega) (by omega)
            (by intro e he1 he2 hdv
                have : e = 2 := by omega
                subst this; omega) (Or.inl ⟨rfl, rfl⟩)
          simpa using this

theorem isprime_table_ok {n : Int} (hn : InInt n) (hm : n ≠ INT_MIN) :
    isprime_table n = ok (decide n.natAbs.Prime) := by
  have h1 := hn.1
  have h2 := hn.2
  unfold isprime_table
  rw [primePre_eq hn hm, ok_bind]
  unfold INT_MIN at hm
  by_cases h0 : n = 0
  · subst h0; simp
    exact Nat.not_prime_zero
  · rw [if_neg h0]
    simp only
    set m := n.natAbs with hmdef
    by_cases c1 : m ≤ 1
    · rw [if_pos (by omega)]
      congr 1; symm
      rw [decide_eq_false_iff_not]; intro hp; have := hp.two_le; omega
    · rw [if_neg (by omega)]
      congr 1
      rw [Int.toNat_natCast, Bool.eq_iff_iff, tableLoop_iff m (by omega) (by norm_num; omega),
        decide_eq_true_iff]

theorem getElem_primes_16 (i : Nat) (hi : i < primes_16.length) :
    primes_16[i] = Nat.nth Nat.Prime i := by
  have hp : primes_16[i].Prime := ((mem_primes_16 _).mp (List.getElem_mem hi)).2
  have hlt : primes_16[i] < 65536 := ((mem_primes_16 _).mp (List.getElem_mem hi)).1
  have hc : Nat.count Nat.Prime primes_16[i] = i := by
    rw [Nat.count_eq_card_filter_range]
    have hs := sorted_primes_16
    rw [List.pairwise_iff_getElem] at hs
    have : (Finset.range primes_16[i]).filter Nat.Prime = (primes_16.take i).toFinset := by
      ext q
      simp only [Finset.mem_filter, Finset.mem_range, List.mem_toFinset]
      constructor
      · rintro ⟨h1, h2⟩
        have hm : q ∈ primes_16 := (mem_primes_16 q).mpr ⟨by omega, h2⟩
        obtain ⟨j, hj, rfl⟩ := List.getElem_of_mem hm
        rw [List.mem_take_iff_getElem]
        refine ⟨j, ?_, rfl⟩
        rw [lt_min_iff]
        refine ⟨?_, hj⟩
        by_contra hc
        rcases Nat.eq_or_lt_of_le (Nat.le_of_not_lt hc) with rfl | h
        · omega
        · have := hs i j hi hj h
          omega
      · intro hq
        rw [List.mem_take_iff_getElem] at hq
        obtain ⟨j, hj, rfl⟩ := hq
        rw [lt_min_iff] at hj
        exact ⟨hs j i hj.2 hi hj.1, ((mem_primes_16 _).mp (List.getElem_mem hj.2)).2⟩
    rw [this, List.toFinset_card_of_nodup, List.length_take]
    · omega
    · exact (List.Pairwise.imp (fun h => Nat.ne_of_lt h) sorted_primes_16).sublist
        (List.take_sublist _ _)
  have := Nat.nth_count hp
  rw [hc] at this
  exact this.symm

end Spffl
