/- Property theorems C07 (primality) and C08 (prime table). -/
import Verif.Proof.Primes
import Verif.Props.IntMath

namespace Spffl
open Res

/-- C07: for every `int` other than `INT_MIN`, `is_prime(n)` terminates and is true exactly when `|n|`
is prime. -/
theorem C07_is_prime (n : Int) (hn : InInt n) (hm : n ≠ INT_MIN) :
    is_prime n = ok (decide n.natAbs.Prime) := isprime_table_ok hn hm

/-- C07 for the trial-division variant. -/
theorem C07_isprime_trial (n : Int) (hn : InInt n) (hm : n ≠ INT_MIN) :
    isprime_trial n = ok (decide n.natAbs.Prime) := isprime_trial_ok hn hm

/-- C07 domain: `-n` overflows for `INT_MIN`. -/
theorem C07_int_min : is_prime INT_MIN = ub ∧ isprime_trial INT_MIN = ub := by decide

example : InInt 2147483647 ∧ (2147483647 : Int) ≠ INT_MIN := by decide
example : is_prime (-91) = ok false := by decide +kernel

/-- C08: `nth_prime(k)` is the k-th prime (counting from 1) exactly on `1..6542`, otherwise an
exception. -/
theorem C08_nth_prime (k : Int) :
    nth_prime k = if 1 ≤ k ∧ k ≤ 6542 then ok (Nat.nth Nat.Prime (k - 1).toNat : Int) else throw := by
  unfold nth_prime
  rw [show numprimes16 = 6542 from length_primes_16]
  by_cases h1 : k > 6542
  · rw [if_pos (by exact_mod_cast h1), if_neg (by omega)]
  · rw [if_neg (by exact_mod_cast h1)]
    by_cases h2 : k < 1
    · rw [if_pos h2, if_neg (by omega)]
    · have hlt : (k - 1).toNat < primes_16.length := by rw [length_primes_16]; omega
      rw [if_neg h2, if_pos (by omega), rd_ok hlt, map_ok, getElem_primes_16]

example : nth_prime 6542 = ok 65521 := by decide +kernel

/-- The table holds exactly the primes below 2^16, in increasing order. -/
theorem C08_table (m : Nat) : m ∈ primes_16 ↔ m < 65536 ∧ m.Prime := mem_primes_16 m
theorem C08_table_sorted : primes_16.Pairwise (· < ·) := sorted_primes_16

end Spffl
