import Verif.Model.Primes
import Mathlib.Data.Nat.Prime.Basic
import Mathlib.Data.Nat.Prime.Nth
import Mathlib.Data.Nat.Nth
import Mathlib.Data.Nat.Count
import Mathlib.Algebra.BigOperators.Group.List.Basic
import Mathlib.Data.List.Prime
import Mathlib.Tactic.IntervalCases
import Mathlib.Tactic.NormNum.Prime
import Mathlib.Data.List.Sort

/-!
Whole-table check of `primes_16`: kernel evaluation chunk by chunk, lifted to `Nat.Prime`.
-/
namespace Spffl

/-- the primes below 256 -/
def smallPrimes : List Nat := [2, 3, 5, 7, 11, 13, 17, 19, 23, 29, 31, 37, 41, 43, 47, 53, 59, 61, 67, 71, 73, 79, 83, 89, 97, 101, 103, 107, 109, 113, 127, 131, 137, 139, 149, 151, 157, 163, 167, 173, 179, 181, 191, 193, 197, 199, 211, 223, 227, 229, 233, 239, 241, 251]

/-- their product -/
def primorial256 : Nat := 64266330917908644872330635228106713310880186591609208114244758680898150367880703152525200743234420230

theorem primorial256_eq : primorial256 = smallPrimes.prod := by decide +kernel

/-- primality test used in the check (valid for `n < 65536`) -/
def ptest (n : Nat) : Bool :=
  bif Nat.blt n 256 then smallPrimes.elem n else Nat.beq (Nat.gcd n primorial256) 1

/-- Walk `k` numbers from `n` up along the table. -/
def walk : Nat → Nat → List Nat → Bool
  | 0, _, ts => ts.isEmpty
  | k + 1, n, [] => bif ptest n then false else walk k (n + 1) []
  | k + 1, n, t :: ts =>
    bif Nat.beq t n then (bif ptest n then walk k (n + 1) ts else false)
    else (bif ptest n then false else walk k (n + 1) (t :: ts))

theorem walk_0 : walk 545 2 p16c0 = true := by decide +kernel
theorem walk_1 : walk 682 547 p16c1 = true := by decide +kernel
theorem walk_2 : walk 764 1229 p16c2 = true := by decide +kernel
theorem walk_3 : walk 756 1993 p16c3 = true := by decide +kernel
theorem walk_4 : walk 832 2749 p16c4 = true := by decide +kernel
theorem walk_5 : walk 840 3581 p16c5 = true := by decide +kernel
theorem walk_6 : walk 860 4421 p16c6 = true := by decide +kernel
theorem walk_7 : walk 862 5281 p16c7 = true := by decide +kernel
theorem walk_8 : walk 858 6143 p16c8 = true := by decide +kernel
theorem walk_9 : walk 926 7001 p16c9 = true := by decide +kernel
theorem walk_10 : walk 910 7927 p16c10 = true := by decide +kernel
theorem walk_11 : walk 902 8837 p16c11 = true := by decide +kernel
theorem walk_12 : walk 924 9739 p16c12 = true := by decide +kernel
theorem walk_13 : walk 1014 10663 p16c13 = true := by decide +kernel
theorem walk_14 : walk 892 11677 p16c14 = true := by decide +kernel
theorem walk_15 : walk 944 12569 p16c15 = true := by decide +kernel
theorem walk_16 : walk 1020 13513 p16c16 = true := by decide +kernel
theorem walk_17 : walk 880 14533 p16c17 = true := by decide +kernel
theorem walk_18 : walk 998 15413 p16c18 = true := by decide +kernel
theorem walk_19 : walk 982 16411 p16c19 = true := by decide +kernel
theorem walk_20 : walk 936 17393 p16c20 = true := by decide +kernel
theorem walk_21 : walk 1098 18329 p16c21 = true := by decide +kernel
theorem walk_22 : walk 932 19427 p16c22 = true := by decide +kernel
theorem walk_23 : walk 1032 20359 p16c23 = true := by decide +kernel
theorem walk_24 : walk 952 21391 p16c24 = true := by decide +kernel
theorem walk_25 : walk 984 22343 p16c25 = true := by decide +kernel
theorem walk_26 : walk 990 23327 p16c26 = true := by decide +kernel
theorem walk_27 : walk 1092 24317 p16c27 = true := by decide +kernel
theorem walk_28 : walk 998 25409 p16c28 = true := by decide +kernel
theorem walk_29 : walk 1050 26407 p16c29 = true := by decide +kernel
theorem walk_30 : walk 1056 27457 p16c30 = true := by decide +kernel
theorem walk_31 : walk 940 28513 p16c31 = true := by decide +kernel
theorem walk_32 : walk 1124 29453 p16c32 = true := by decide +kernel
theorem walk_33 : walk 1030 30577 p16c33 = true := by decide +kernel
theorem walk_34 : walk 1004 31607 p16c34 = true := by decide +kernel
theorem walk_35 : walk 1006 32611 p16c35 = true := by decide +kernel
theorem walk_36 : walk 1034 33617 p16c36 = true := by decide +kernel
theorem walk_37 : walk 1120 34651 p16c37 = true := by decide +kernel
theorem walk_38 : walk 1016 35771 p16c38 = true := by decide +kernel
theorem walk_39 : walk 1044 36787 p16c39 = true := by decide +kernel
theorem walk_40 : walk 1092 37831 p16c40 = true := by decide +kernel
theorem walk_41 : walk 1056 38923 p16c41 = true := by decide +kernel
theorem walk_42 : walk 1134 39979 p16c42 = true := by decide +kernel
theorem walk_43 : walk 970 41113 p16c43 = true := by decide +kernel
theorem walk_44 : walk 980 42083 p16c44 = true := by decide +kernel
theorem walk_45 : walk 1140 43063 p16c45 = true := by decide +kernel
theorem walk_46 : walk 1114 44203 p16c46 = true := by decide +kernel
theorem walk_47 : walk 1134 45317 p16c47 = true := by decide +kernel
theorem walk_48 : walk 1082 46451 p16c48 = true := by decide +kernel
theorem walk_49 : walk 1086 47533 p16c49 = true := by decide +kernel
theorem walk_50 : walk 1048 48619 p16c50 = true := by decide +kernel
theorem walk_51 : walk 1100 49667 p16c51 = true := by decide +kernel
theorem walk_52 : walk 1050 50767 p16c52 = true := by decide +kernel
theorem walk_53 : walk 1120 51817 p16c53 = true := by decide +kernel
theorem walk_54 : walk 1064 52937 p16c54 = true := by decide +kernel
theorem walk_55 : walk 1108 54001 p16c55 = true := by decide +kernel
theorem walk_56 : walk 1088 55109 p16c56 = true := by decide +kernel
theorem walk_57 : walk 996 56197 p16c57 = true := by decide +kernel
theorem walk_58 : walk 1050 57193 p16c58 = true := by decide +kernel
theorem walk_59 : walk 1126 58243 p16c59 = true := by decide +kernel
theorem walk_60 : walk 1140 59369 p16c60 = true := by decide +kernel
theorem walk_61 : walk 1128 60509 p16c61 = true := by decide +kernel
theorem walk_62 : walk 1154 61637 p16c62 = true := by decide +kernel
theorem walk_63 : walk 1032 62791 p16c63 = true := by decide +kernel
theorem walk_64 : walk 1248 63823 p16c64 = true := by decide +kernel
theorem walk_65 : walk 465 65071 p16c65 = true := by decide +kernel

theorem walk_head_ge : ∀ (k n t : Nat) (ts : List Nat), walk k n (t :: ts) = true → n ≤ t := by
  intro k
  induction k with
  | zero => intro n t ts h; simp [walk] at h
  | succ k ih =>
    intro n t ts h
    simp only [walk] at h
    cases hb : Nat.beq t n
    · cases hp : ptest n
      · simp only [hb, hp, cond_false] at h
        have := ih (n + 1) t ts h
        omega
      · simp [hb, hp] at h
    · have : t = n := by simpa using hb
      omega


theorem walk_append : ∀ (k n : Nat) (ts : List Nat) (k' : Nat) (ts' : List Nat),
    walk k n ts = true → walk k' (n + k) ts' = true → walk (k + k') n (ts ++ ts') = true := by
  intro k
  induction k with
  | zero =>
    intro n ts k' ts' h h'
    cases ts with
    | nil => simpa using h'
    | cons t ts => simp [walk] at h
  | succ k ih =>
    intro n ts k' ts' h h'
    rw [show k + 1 + k' = (k + k') + 1 by omega]
    rw [show n + (k + 1) = (n + 1) + k by omega] at h'
    cases ts with
    | nil =>
      simp only [walk] at h
      cases hp : ptest n with
      | true => simp [hp] at h
      | false =>
        simp only [hp, cond_false] at h
        have hr := ih (n + 1) [] k' ts' h h'
        rw [List.nil_append] at hr ⊢
        cases ts' with
        | nil => simp [walk, hp, hr]
        | cons t ts' =>
          have hne : Nat.beq t n = false := by
            by_contra hc
            have hc : t = n := by simpa using hc
            subst hc
            exact (walk_head_ge _ _ _ _ hr).not_gt (Nat.lt_succ_self _)
          simp [walk, hp, hr, hne]
    | cons t ts =>
      simp only [walk] at h
      rw [List.cons_append]
      simp only [walk]
      cases hb : Nat.beq t n <;> cases hp : ptest n <;> simp only [hb, hp, cond_true, cond_false] at h ⊢
      · exact ih (n + 1) (t :: ts) k' ts' h h'
      · exact absurd h (by simp)
      · exact absurd h (by simp)
      · exact ih (n + 1) ts k' ts' h h'

theorem walk_table : walk 65534 2 primes_16 = true := by
  have h := (walk_append _ _ _ _ _ walk_0 (walk_append _ _ _ _ _ walk_1 (walk_append _ _ _ _ _ walk_2 (walk_append _ _ _ _ _ walk_3 (walk_append _ _ _ _ _ walk_4 (walk_append _ _ _ _ _ walk_5 (walk_append _ _ _ _ _ walk_6 (walk_append _ _ _ _ _ walk_7 (walk_append _ _ _ _ _ walk_8 (walk_append _ _ _ _ _ walk_9 (walk_append _ _ _ _ _ walk_10 (walk_append _ _ _ _ _ walk_11 (walk_append _ _ _ _ _ walk_12 (walk_append _ _ _ _ _ walk_13 (walk_append _ _ _ _ _ walk_14 (walk_append _ _ _ _ _ walk_15 (walk_append _ _ _ _ _ walk_16 (walk_append _ _ _ _ _ walk_17 (walk_append _ _ _ _ _ walk_18 (walk_append _ _ _ _ _ walk_19 (walk_append _ _ _ _ _ walk_20 (walk_append _ _ _ _ _ walk_21 (walk_append _ _ _ _ _ walk_22 (walk_append _ _ _ _ _ walk_23 (walk_append _ _ _ _ _ walk_24 (walk_append _ _ _ _ _ walk_25 (walk_append _ _ _ _ _ walk_26 (walk_append _ _ _ _ _ walk_27 (walk_append _ _ _ _ _ walk_28 (walk_append _ _ _ _ _ walk_29 (walk_append _ _ _ _ _ walk_30 (walk_append _ _ _ _ _ walk_31 (walk_append _ _ _ _ _ walk_32 (walk_append _ _ _ _ _ walk_33 (walk_append _ _ _ _ _ walk_34 (walk_append _ _ _ _ _ walk_35 (walk_append _ _ _ _ _ walk_36 (walk_append _ _ _ _ _ walk_37 (walk_append _ _ _ _ _ walk_38 (walk_append _ _ _ _ _ walk_39 (walk_append _ _ _ _ _ walk_40 (walk_append _ _ _ _ _ walk_41 (walk_append _ _ _ _ _ walk_42 (walk_append _ _ _ _ _ walk_43 (walk_append _ _ _ _ _ walk_44 (walk_append _ _ _ _ _ walk_45 (walk_append _ _ _ _ _ walk_46 (walk_append _ _ _ _ _ walk_47 (walk_append _ _ _ _ _ walk_48 (walk_append _ _ _ _ _ walk_49 (walk_append _ _ _ _ _ walk_50 (walk_append _ _ _ _ _ walk_51 (walk_append _ _ _ _ _ walk_52 (walk_append _ _ _ _ _ walk_53 (walk_append _ _ _ _ _ walk_54 (walk_append _ _ _ _ _ walk_55 (walk_append _ _ _ _ _ walk_56 (walk_append _ _ _ _ _ walk_57 (walk_append _ _ _ _ _ walk_58 (walk_append _ _ _ _ _ walk_59 (walk_append _ _ _ _ _ walk_60 (walk_append _ _ _ _ _ walk_61 (walk_append _ _ _ _ _ walk_62 (walk_append _ _ _ _ _ walk_63 (walk_append _ _ _ _ _ walk_64 walk_65)))))))))))))))))))))))))))))))))))))))))))))))))))))))))))))))))
  exact h

theorem ptest_iff {n : Nat} (h : n < 65536) : ptest n = true ↔ n.Prime := by
  have hsmall : ∀ q, q < 256 → (smallPrimes.elem q = true ↔ q.Prime) := by
    intro q hq
    interval_cases q <;> (first | (refine iff_of_true (by decide) (by norm_num)) | (refine iff_of_false (by decide) (by norm_num)))
  unfold ptest
  by_cases h256 : n < 256
  · have : Nat.blt n 256 = true := by simpa using h256
    rw [this, cond_true]
    exact hsmall n h256
  · have : Nat.blt n 256 = false := by
      rw [Bool.eq_false_iff]; simpa using h256
    rw [this, cond_false]
    rw [show (Nat.beq (Nat.gcd n primorial256) 1 = true) ↔ Nat.gcd n primorial256 = 1 by simp]
    constructor
    · intro hg
      by_contra hnp
      have h2 : n.minFac ^ 2 ≤ n := Nat.minFac_sq_le_self (by omega) hnp
      have hlt : n.minFac < 256 := by
        by_contra hc
        have : 256 ^ 2 ≤ n.minFac ^ 2 := Nat.pow_le_pow_left (by omega) 2
        omega
      have hpr : n.minFac.Prime := Nat.minFac_prime (by omega)
      have hmem := (hsmall _ hlt).mpr hpr
      have hd : n.minFac ∣ primorial256 := by
        rw [primorial256_eq]
        exact List.dvd_prod (List.elem_iff.mp hmem)
      have := Nat.dvd_gcd (Nat.minFac_dvd n) hd
      rw [hg] at this
      exact hpr.one_lt.ne' (Nat.dvd_one.mp this)
    · intro hp
      rw [← Nat.coprime_iff_gcd_eq_one, Nat.Prime.coprime_iff_not_dvd hp, primorial256_eq]
      intro hd
      rw [Prime.dvd_prod_iff hp.prime] at hd
      obtain ⟨q, hq, hdq⟩ := hd
      have hall : ∀ q ∈ smallPrimes, q < 256 ∧ 0 < q := by decide
      have hq256 := hall q hq
      have := Nat.le_of_dvd hq256.2 hdq
      omega

/-- What a successful walk means. -/
theorem walk_spec : ∀ (k n : Nat) (ts : List Nat), n + k ≤ 65536 → walk k n ts = true →
    (∀ m, m ∈ ts ↔ n ≤ m ∧ m < n + k ∧ m.Prime) ∧ ts.Pairwise (· < ·) := by
  intro k
  induction k with
  | zero =>
    intro n ts hn h
    have : ts = [] := by simpa [walk] using h
    subst this
    refine ⟨fun m => ?_, List.Pairwise.nil⟩
    constructor
    · intro h; simp at h
    · intro h; omega
  | succ k ih =>
    intro n ts hn h
    cases ts with
    | nil =>
      simp only [walk] at h
      cases hp : ptest n with
      | true => simp [hp] at h
      | false =>
        simp only [hp, cond_false] at h
        obtain ⟨h1, _⟩ := ih (n + 1) [] (by omega) h
        refine ⟨fun m => ?_, List.Pairwise.nil⟩
        rw [h1 m]
        have hnp : ¬ n.Prime := by rw [← ptest_iff (by omega)]; simp [hp]
        constructor
        · rintro ⟨a, b, c⟩; exact ⟨by omega, by omega, c⟩
        · rintro ⟨a, b, c⟩
          refine ⟨?_, by omega, c⟩
          rcases Nat.lt_or_ge n m with h | h
          · exact h
          · have : m = n := by omega
            subst this; exact absurd c hnp
    | cons t ts =>
      simp only [walk] at h
      cases hb : Nat.beq t n <;> cases hp : ptest n <;>
        simp only [hb, hp, cond_true, cond_false, Bool.false_eq_true] at h
      · obtain ⟨h1, h2⟩ := ih (n + 1) (t :: ts) (by omega) h
        refine ⟨fun m => ?_, h2⟩
        rw [h1 m]
        have hnp : ¬ n.Prime := by rw [← ptest_iff (by omega)]; simp [hp]
        constructor
        · rintro ⟨a, b, c⟩; exact ⟨by omega, by omega, c⟩
        · rintro ⟨a, b, c⟩
          refine ⟨?_, by omega, c⟩
          rcases Nat.lt_or_ge n m with h | h
          · exact h
          · have : m = n := by omega
            subst this; exact absurd c hnp
      · have hpn : n.Prime := (ptest_iff (by omega)).mp hp
        have htn : t = n := by simpa using hb
        subst htn
        obtain ⟨h1, h2⟩ := ih (t + 1) ts (by omega) h
        refine ⟨fun m => ?_, ?_⟩
        · rw [List.mem_cons, h1 m]
          constructor
          · rintro (rfl | ⟨a, b, c⟩)
            · exact ⟨le_rfl, by omega, hpn⟩
            · exact ⟨by omega, by omega, c⟩
          · rintro ⟨a, b, c⟩
            rcases Nat.lt_or_ge t m with h | h
            · exact Or.inr ⟨h, by omega, c⟩
            · exact Or.inl (by omega)
        · rw [List.pairwise_cons]
          refine ⟨fun m hm => ?_, h2⟩
          have := (h1 m).mp hm
          omega

theorem mem_primes_16 (m : Nat) : m ∈ primes_16 ↔ m < 65536 ∧ m.Prime := by
  rw [(walk_spec 65534 2 primes_16 le_rfl walk_table).1 m]
  constructor
  · rintro ⟨_, b, c⟩; exact ⟨by omega, c⟩
  · rintro ⟨b, c⟩; exact ⟨c.two_le, by omega, c⟩

theorem sorted_primes_16 : primes_16.Pairwise (· < ·) :=
  (walk_spec 65534 2 primes_16 le_rfl walk_table).2

theorem length_primes_16 : primes_16.length = 6542 := by decide +kernel

end Spffl
