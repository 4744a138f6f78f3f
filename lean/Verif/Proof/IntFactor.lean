/-
`int_factor` and divisor enumeration over `int`.
-/
import Verif.Proof.FacInfo
import Verif.Proof.IntMath
import Verif.Proof.PrimeTable
import Mathlib.NumberTheory.Divisors
import Mathlib.Data.Nat.Factorization.Basic

namespace Spffl
open Res

/-- Values on which `int` products do not overflow and divide each other harmlessly. -/
def DInt (x : ℤ) : Prop := x ≠ 0 ∧ |x| ≤ 2147483647

theorem DInt.inInt {x : ℤ} (h : DInt x) : InInt x := by
  unfold InInt; have := abs_le.mp h.2; omega

theorem facRef_int : FacRef intOps (fun (a x : ℤ) => a = x ∧ InInt x) DInt (id : ℤ → ℤ) where
  eq_ok := by
    rintro a b x y ⟨rfl, _⟩ ⟨rfl, _⟩; simp [intOps]
  lt_ok := by
    rintro a b x y ⟨rfl, _⟩ ⟨rfl, _⟩; simp [intOps]
  key_inj := Function.injective_id
  mul_ok := by
    rintro a b x y ⟨rfl, _⟩ ⟨rfl, _⟩ h
    simp [intOps, imul, chk_ok h.inInt, h.inInt]
  sub_self := by
    rintro a x ⟨rfl, _⟩
    have : InInt (a - a) := by unfold InInt; omega
    have h0 : InInt 0 := by decide
    simp [intOps, isub, chk_ok h0, h0]
  div_self := by
    rintro a x ⟨rfl, _⟩ h
    have h1 : InInt 1 := by decide
    simp [intOps, idiv, h, Int.tdiv_self h, chk_ok h1, h1]
  D_dvd := by
    rintro x y ⟨h0, h1⟩ hd
    refine ⟨fun h => h0 (by rw [h] at hd; exact zero_dvd_iff.mp hd), le_trans ?_ h1⟩
    exact Int.le_of_dvd (abs_pos.mpr h0) ((abs_dvd_abs x y).mpr hd)

namespace FacInfo

/-- The stored form of a list of primes with multiplicities. -/
def stored (l : List (ℕ × ℕ)) : List (Int × Int) := l.map fun q => ((q.1 : Int), (q.2 : Int))

/-- The number a list of primes with multiplicities stands for. -/
def pprod (l : List (ℕ × ℕ)) : ℕ := (l.map fun q => q.1 ^ q.2).prod

theorem find_append : ∀ (l : List (ℕ × ℕ)) (e : ℕ) (i : ℕ), (∀ q ∈ l, q.1 < e) →
    find intOps (e : Int) (stored l) i = ok (false, i + l.length)
  | [], e, i, _ => by simp [find, stored]
  | q :: l, e, i, h => by
    have hq := h q (by simp)
    have h1 : ((e : Int) == (q.1 : Int)) = false := by simp; omega
    have h2 : decide ((e : Int) < (q.1 : Int)) = false := by simp; omega
    have := find_append l e (i + 1) (fun q' hq' => h q' (by simp [hq']))
    simp only [stored, List.map_cons, find, intOps, ok_bind, h1, h2] at this ⊢
    simp only [Bool.false_eq_true, if_false, this, List.length_cons]
    congr 2; omega

theorem insert_append (l : List (ℕ × ℕ)) (u : Option Int) (e k : ℕ) (h : ∀ q ∈ l, q.1 < e) :
    insert_factor intOps ⟨stored l, u⟩ e k = ok ⟨stored (l ++ [(e, k)]), u⟩ := by
  unfold insert_factor
  rw [find_append l e 0 h]
  have hlen : (0 + l.length) = (stored l).length := by simp [stored]
  simp only [ok_bind, Bool.false_eq_true, if_false]
  rw [hlen, List.insertIdx_length_self]
  simp [stored]

theorem divOut_ok (p : ℕ) (hp : 2 ≤ p) (hp' : p ≤ 2147483647) : ∀ (k cnt n : ℕ), 0 < n → n < 2 ^ k →
    n ≤ 2147483647 → cnt + k ≤ 1000 →
    ∃ j m : ℕ, divOut (p : Int) (k + 1) cnt n = ok (((cnt + j : ℕ) : Int), (m : Int)) ∧ n = p ^ j * m ∧ ¬ p ∣ m := by
  intro k
  induction k with
  | zero => intro cnt n h0 h1; omega
  | succ k ih =>
    intro cnt n h0 h1 h2 h3
    have hp0 : (0 : Int) < p := by omega
    have hm : imod (n : Int) p = ok ((n : Int) % p) := imod_nonneg_ok (by omega) (by omega) hp0
    unfold divOut
    rw [hm, ok_bind]
    by_cases hd : p ∣ n
    · obtain ⟨c, rfl⟩ := hd
      have hz : (((p * c : ℕ) : Int)) % p = 0 := by push_cast; simp
      rw [if_pos hz]
      have hin : InInt ((cnt : Int) + 1) := by unfold InInt; omega
      have hdiv : idiv ((p * c : ℕ) : Int) p = ok (c : Int) := by
        unfold idiv
        rw [if_neg (by omega)]
        have : Int.tdiv ((p * c : ℕ) : Int) p = c := by
          push_cast; exact Int.mul_tdiv_cancel_left _ (by omega)
        rw [this, chk_ok]
        have : c ≤ p * c := Nat.le_mul_of_pos_left c (by omega)
        unfold InInt; omega
      simp only [iadd, chk_ok hin, ok_bind, hdiv]
      have hc0 : 0 < c := Nat.pos_of_mul_pos_left h0
      have hc1 : 2 * c ≤ p * c := Nat.mul_le_mul_right c hp
      have hc2 : c < 2 ^ k := by rw [pow_succ] at h1; omega
      obtain ⟨j, m, hj, hm1, hm2⟩ := ih (cnt + 1) c hc0 hc2 (by omega) (by omega)
      refine ⟨j + 1, m, ?_, ?_, hm2⟩
      · have : (((cnt + 1 : ℕ)) : Int) = (cnt : Int) + 1 := by push_cast; rfl
        rw [this] at hj
        rw [hj]; congr 2; push_cast; ring
      · rw [hm1]; ring
    · have hz : ¬ ((n : Int) % p = 0) := by
        intro h; exact hd (by exact_mod_cast Int.dvd_of_emod_eq_zero h)
      rw [if_neg hz]
      exact ⟨0, n, by simp, by simp, hd⟩

theorem pprod_append (l : List (ℕ × ℕ)) (p j : ℕ) : pprod (l ++ [(p, j)]) = pprod l * p ^ j := by
  simp [pprod]

/-- Loop invariant of `int_factor`. -/
structure FInv (N : ℕ) (ps : List ℕ) (l : List (ℕ × ℕ)) (n : ℕ) : Prop where
  pos : 0 < n
  prod : pprod l * n = N
  prime : ∀ q ∈ l, q.1.Prime ∧ 0 < q.2
  lt : ∀ q ∈ l, ∀ p ∈ ps, q.1 < p
  sorted : (l.map Prod.fst).Pairwise (· < ·)
  left : ∀ p, p.Prime → p ∣ n → p < 65536 → p ∈ ps
  big : ∀ q ∈ l, q.1 < 65536
  cop : ∀ q ∈ l, ¬ q.1 ∣ n

theorem factorLoop_ok (N : ℕ) (hN : N ≤ 2147483647) (u : Option Int) : ∀ (ps : List ℕ) (l : List (ℕ × ℕ)) (n : ℕ),
    (∀ p ∈ ps, p.Prime ∧ p < 65536) → ps.Pairwise (· < ·) → FInv N ps l n →
    ∃ l' n', factorLoop ps ⟨stored l, u⟩ n = ok (⟨stored l', u⟩, ((n' : ℕ) : Int)) ∧
      (n' = 1 ∧ FInv N [] l' 1 ∨ FInv N [] l' n') := by
  intro ps
  induction ps with
  | nil => intro l n _ _ h; exact ⟨l, n, rfl, Or.inr h⟩
  | cons p ps ih =>
    intro l n hps hsort h
    rw [List.pairwise_cons] at hsort
    obtain ⟨hpp, hp16⟩ := hps p (by simp)
    unfold factorLoop
    split
    · rename_i h1
      have h1 : n = 1 := by exact_mod_cast h1
      subst h1
      refine ⟨l, 1, rfl, Or.inl ⟨rfl, ⟨h.pos, h.prod, h.prime, by simp, h.sorted, ?_, h.big, h.cop⟩⟩⟩
      intro q hq hd; exact absurd (Nat.dvd_one.mp hd) hq.one_lt.ne'
    · have hnN : n ≤ N := by
        rw [← h.prod]
        refine Nat.le_mul_of_pos_left n ?_
        have := h.prod
        rcases Nat.eq_zero_or_pos (pprod l) with h0 | h0
        · exfalso
          unfold pprod at h0
          rw [List.prod_eq_zero_iff] at h0
          obtain ⟨q, hq, hq0⟩ := List.mem_map.mp h0
          have := (h.prime q hq).1.pos
          exact absurd hq0 (by positivity)
        · exact h0
      have hm : imod (n : Int) p = ok ((n : Int) % p) :=
        imod_nonneg_ok (by omega) (by omega) (by have := hpp.pos; omega)
      rw [hm, ok_bind]
      split
      · rename_i hne
        refine ih l n (fun q hq => hps q (by simp [hq])) hsort.2
          ⟨h.pos, h.prod, h.prime, fun q hq p' hp' => h.lt q hq p' (by simp [hp']), h.sorted, ?_, h.big, h.cop⟩
        intro q hq hd h16
        rcases List.mem_cons.mp (h.left q hq hd h16) with rfl | hm
        · exfalso; apply hne; exact Int.emod_eq_zero_of_dvd (by exact_mod_cast hd)
        · exact hm
      · rename_i hd
        have hd : p ∣ n := by
          have := Int.dvd_of_emod_eq_zero (not_not.mp hd); exact_mod_cast this
        have hn31 : n < 2 ^ 31 := by norm_num; omega
        obtain ⟨j, m, hj, hnm, hpm⟩ := divOut_ok p hpp.two_le (by omega) 31 0 n h.pos
          hn31 (by omega) (by omega)
        simp only [Nat.cast_zero, zero_add] at hj
        rw [show ((31 : ℕ) + 1) = 32 from rfl] at hj
        rw [hj]
        simp only [ok_bind]
        rw [insert_append l u p j (fun q hq => h.lt q hq p (by simp)), ok_bind]
        have hj0 : 0 < j := by
          rcases Nat.eq_zero_or_pos j with rfl | h0
          · simp at hnm; rw [hnm] at hd; exact absurd hd hpm
          · exact h0
        have hm0 : 0 < m := by
          rcases Nat.eq_zero_or_pos m with rfl | h0
          · simp at hnm; have := h.pos; omega
          · exact h0
        refine ih (l ++ [(p, j)]) m (fun q hq => hps q (by simp [hq])) hsort.2 ⟨hm0, ?_, ?_, ?_, ?_, ?_, ?_, ?_⟩
        · rw [pprod_append, mul_assoc, ← hnm, h.prod]
        · intro q hq
          rcases List.mem_append.mp hq with hq | hq
          · exact h.prime q hq
          · simp at hq; subst hq; exact ⟨hpp, hj0⟩
        · intro q hq p' hp'
          rcases List.mem_append.mp hq with hq | hq
          · exact h.lt q hq p' (by simp [hp'])
          · simp at hq; subst hq; exact hsort.1 p' hp'
        · rw [List.map_append, List.pairwise_append]
          refine ⟨h.sorted, by simp, ?_⟩
          intro a ha b hb
          obtain ⟨q, hq, rfl⟩ := List.mem_map.mp ha
          simp at hb; subst hb
          exact h.lt q hq b (by simp)
        · intro q hq hd' h16
          have hqn : q ∣ n := by rw [hnm]; exact Dvd.dvd.mul_left hd' _
          rcases List.mem_cons.mp (h.left q hq hqn h16) with rfl | hm
          · exact absurd hd' hpm
          · exact hm
        · intro q hq
          rcases List.mem_append.mp hq with hq | hq
          · exact h.big q hq
          · simp at hq; subst hq; exact hp16
        · intro q hq
          rcases List.mem_append.mp hq with hq | hq
          · intro hdm; exact h.cop q hq (by rw [hnm]; exact Dvd.dvd.mul_left hdm _)
          · simp at hq; subst hq; exact hpm

/-- A complete factorization of `N`. -/
structure IsFac (N : ℕ) (l : List (ℕ × ℕ)) : Prop where
  prod : pprod l = N
  prime : ∀ q ∈ l, q.1.Prime ∧ 0 < q.2
  sorted : (l.map Prod.fst).Pairwise (· < ·)

theorem factor_core (N : ℕ) (h0 : 0 < N) (hN : N ≤ 2147483647) (u : Option Int) :
    ∃ l, (factorLoop primes_16 ⟨stored [], u⟩ N >>= fun r => factorTail r.1 r.2) =
      ok ⟨stored l, u⟩ ∧ IsFac N l := by
  have hps : ∀ p ∈ primes_16, p.Prime ∧ p < 65536 := fun p hp => by
    have := (mem_primes_16 p).mp hp; exact ⟨this.2, this.1⟩
  obtain ⟨l, n, hl, hinv⟩ := factorLoop_ok N hN u primes_16 [] N hps sorted_primes_16
    ⟨h0, by simp [pprod], by simp, by simp, by simp,
      fun p hp _ h16 => (mem_primes_16 p).mpr ⟨h16, hp⟩, by simp, by simp⟩
  rw [hl, ok_bind]
  have hinv : FInv N [] l n := by
    rcases hinv with ⟨rfl, h⟩ | h
    · exact h
    · exact h
  unfold factorTail
  by_cases h1 : n = 1
  · subst h1
    refine ⟨l, by simp, ?_, hinv.prime, hinv.sorted⟩
    have := hinv.prod; simpa using this
  · have h1' : ((n : ℕ) : Int) ≠ 1 := by exact_mod_cast h1
    have hnN : n ≤ N := Nat.le_of_dvd h0 (by rw [← hinv.prod]; exact Dvd.intro_left _ rfl)
    have hsmall : ∀ p, p.Prime → p ∣ n → 65536 ≤ p := by
      intro p hp hd
      by_contra hlt
      have := hinv.left p hp hd (by omega)
      simp at this
    have hnp : n.Prime := by
      have h2 : 2 ≤ n := by have := hinv.pos; omega
      by_contra hnp
      have hmf := Nat.minFac_sq_le_self hinv.pos hnp
      have := hsmall _ (Nat.minFac_prime h1) (Nat.minFac_dvd n)
      have : 65536 * 65536 ≤ n.minFac ^ 2 := by rw [pow_two]; exact Nat.mul_le_mul this this
      omega
    rw [if_pos h1']
    have hins := insert_append l u n 1 (fun q hq => by
      have := hinv.big q hq
      have := hsmall n hnp (dvd_refl n)
      omega)
    rw [Nat.cast_one] at hins
    rw [hins]
    refine ⟨l ++ [(n, 1)], rfl, ?_, ?_, ?_⟩
    · rw [pprod_append, pow_one, hinv.prod]
    · intro q hq
      rcases List.mem_append.mp hq with hq | hq
      · exact hinv.prime q hq
      · simp at hq; subst hq; exact ⟨hnp, by simp⟩
    · rw [List.map_append, List.pairwise_append]
      refine ⟨hinv.sorted, by simp, ?_⟩
      intro a ha b hb
      obtain ⟨q, hq, rfl⟩ := List.mem_map.mp ha
      simp at hb; subst hb
      have := hinv.big q hq
      have := hsmall b hnp (dvd_refl b)
      omega

theorem int_factor_ok {n : Int} (h2 : 2 ≤ n.natAbs) (hn : n.natAbs ≤ 2147483647) :
    ∃ l, int_factor n = ok ⟨stored l, if n < 0 then some (-1) else none⟩ ∧ IsFac n.natAbs l := by
  unfold int_factor
  rw [if_neg (by omega)]
  split
  · rename_i hneg
    have hin : InInt (-n) := by unfold InInt; omega
    obtain ⟨l, hl, hf⟩ := factor_core n.natAbs (by omega) hn (some (-1))
    refine ⟨l, ?_, hf⟩
    have hu : insert_unit intOps empty (-1) = ok ⟨stored [], some (-1)⟩ := rfl
    rw [hu, ok_bind]
    simp only [ineg, chk_ok hin, ok_bind]
    rw [show (-n) = ((n.natAbs : ℕ) : Int) by omega]
    exact hl
  · rename_i hneg
    obtain ⟨l, hl, hf⟩ := factor_core n.natAbs (by omega) hn none
    refine ⟨l, ?_, hf⟩
    have e : ((n.natAbs : ℕ) : Int) = n := by omega
    rw [e] at hl
    exact hl

end FacInfo
end Spffl
