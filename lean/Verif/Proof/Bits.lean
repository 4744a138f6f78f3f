import Verif.Model.Bits
import Mathlib.Data.Nat.Log
import Mathlib.Data.Nat.Bitwise
import Mathlib.Algebra.BigOperators.Group.List.Basic
import Mathlib.Algebra.BigOperators.Group.Finset.Basic
import Mathlib.Tactic.IntervalCases
import Mathlib.Tactic.Ring
import Mathlib.Tactic.NormNum
import Mathlib.Tactic.Positivity

namespace Spffl
open Res

theorem log_div_pow {n k : Nat} (h : n / 2 ^ k ≠ 0) : Nat.log 2 (n / 2 ^ k) + k = Nat.log 2 n := by
  have h1 : 2 ^ k ≤ n := by
    by_contra hc
    exact h (Nat.div_eq_of_lt (by omega))
  have h2 : k ≤ Nat.log 2 n := Nat.le_log_of_pow_le (by norm_num) h1
  rw [Nat.log_div_base_pow]
  omega

theorem msbStep_spec {k n r : Nat} (hn : n < 2 ^ (2 * k)) (h0 : n ≠ 0) :
    (msbStep k (n, r)).1 < 2 ^ k ∧ (msbStep k (n, r)).1 ≠ 0 ∧
      (msbStep k (n, r)).2 + Nat.log 2 (msbStep k (n, r)).1 = r + Nat.log 2 n := by
  unfold msbStep
  simp only
  split
  · rename_i h
    refine ⟨?_, h, ?_⟩
    · rw [Nat.div_lt_iff_lt_mul (by positivity), ← pow_add]
      rwa [show k + k = 2 * k by omega]
    · have := log_div_pow h
      show r + k + Nat.log 2 (n / 2 ^ k) = r + Nat.log 2 n
      omega
  · rename_i h
    have h1 : n / 2 ^ k = 0 := by omega
    have h2 : n < 2 ^ k := by
      by_contra hc
      have : 0 < n / 2 ^ k := Nat.div_pos (by omega) (by positivity)
      omega
    rw [Nat.mod_eq_of_lt h2]
    exact ⟨h2, h0, rfl⟩

theorem u4_table_spec {n : Nat} (hn : n < 16) (h0 : n ≠ 0) : rd u4_table n = ok (Nat.log 2 n) := by
  have : ∀ n, n < 16 → n ≠ 0 → ∃ t, rd u4_table n = ok t ∧ 2 ^ t ≤ n ∧ n < 2 ^ (t + 1) := by
    intro n hn h0
    interval_cases n
    · omega
    all_goals (refine ⟨_, rfl, ?_, ?_⟩ <;> decide)
  obtain ⟨t, h1, h2, h3⟩ := this n hn h0
  rw [h1]; congr 1
  symm
  exact (Nat.log_eq_iff (Or.inr ⟨by norm_num, h0⟩)).mpr ⟨h2, h3⟩

theorem find_msb_16_ok {n : Nat} (h0 : n ≠ 0) (hn : n < 2 ^ 16) :
    find_msb_16 n = ok (Nat.log 2 n) := by
  obtain ⟨a1, a2, a3⟩ := msbStep_spec (k := 8) (r := 0) hn h0
  obtain ⟨b1, b2, b3⟩ := msbStep_spec (k := 4) (n := (msbStep 8 (n, 0)).1)
    (r := (msbStep 8 (n, 0)).2) a1 a2
  unfold find_msb_16
  simp only
  rw [u4_table_spec (by simpa using b1) b2, ok_bind]
  congr 1; simp only [Prod.mk.eta] at b3 ⊢; omega

theorem find_msb_32_ok {n : Nat} (h0 : n ≠ 0) (hn : n < 2 ^ 32) :
    find_msb_32 n = ok (Nat.log 2 n) := by
  obtain ⟨a1, a2, a3⟩ := msbStep_spec (k := 16) (r := 0) hn h0
  obtain ⟨b1, b2, b3⟩ := msbStep_spec (k := 8) (n := (msbStep 16 (n, 0)).1)
    (r := (msbStep 16 (n, 0)).2) a1 a2
  obtain ⟨c1, c2, c3⟩ := msbStep_spec (k := 4) (n := (msbStep 8 (msbStep 16 (n, 0))).1)
    (r := (msbStep 8 (msbStep 16 (n, 0))).2) (by simpa using b1) (by simpa using b2)
  unfold find_msb_32
  simp only
  rw [u4_table_spec (by simpa using c1) c2, ok_bind]
  congr 1; simp only [Prod.mk.eta] at b3 c3 ⊢; omega

theorem find_msb_64_ok {n : Nat} (h0 : n ≠ 0) (hn : n < 2 ^ 64) :
    find_msb_64 n = ok (Nat.log 2 n) := by
  have hu : n / 2 ^ 32 % 2 ^ 32 = n / 2 ^ 32 := Nat.mod_eq_of_lt (by omega)
  unfold find_msb_64
  simp only [hu]
  split
  · rename_i h
    rw [find_msb_32_ok h (by omega), ok_bind, log_div_pow h]
  · rename_i h
    have h1 : n < 2 ^ 32 := by omega
    rw [Nat.mod_eq_of_lt h1, find_msb_32_ok h0 h1]

/-- index of least significant set bit, as a relation -/
def IsLsb (n r : Nat) : Prop := n.testBit r = true ∧ ∀ i < r, n.testBit i = false

theorem lsbStep_spec {k n r : Nat} (hn : n < 2 ^ (2 * k)) (h0 : n ≠ 0) :
    (lsbStep k (n, r)).1 < 2 ^ k ∧ (lsbStep k (n, r)).1 ≠ 0 ∧
      ∃ e, (lsbStep k (n, r)).2 = r + e ∧ ∀ t, IsLsb (lsbStep k (n, r)).1 t → IsLsb n (e + t) := by
  unfold lsbStep
  simp only
  split
  · rename_i h
    refine ⟨Nat.mod_lt _ (by positivity), h, 0, rfl, ?_⟩
    rintro t ⟨h1, h2⟩
    rw [Nat.testBit_mod_two_pow] at h1
    have htk : t < k := by simp at h1; exact h1.1
    refine ⟨by simp at h1 ⊢; exact h1.2, fun i hi => ?_⟩
    have := h2 i (by omega)
    rw [Nat.testBit_mod_two_pow] at this
    simpa [show i < k by omega] using this
  · rename_i h
    have hm : n % 2 ^ k = 0 := by omega
    refine ⟨?_, ?_, k, rfl, ?_⟩
    · rw [Nat.div_lt_iff_lt_mul (by positivity), ← pow_add]
      rwa [show k + k = 2 * k by omega]
    · intro hc
      have := Nat.div_add_mod n (2 ^ k)
      change n / 2 ^ k = 0 at hc
      rw [hc, hm] at this; omega
    · rintro t ⟨h1, h2⟩
      rw [Nat.testBit_div_two_pow] at h1
      refine ⟨by rwa [Nat.add_comm], fun i hi => ?_⟩
      rcases Nat.lt_or_ge i k with hik | hik
      · have : (n % 2 ^ k).testBit i = false := by rw [hm]; simp
        rw [Nat.testBit_mod_two_pow] at this
        simpa [hik] using this
      · have := h2 (i - k) (by omega)
        rw [Nat.testBit_div_two_pow] at this
        rwa [show i - k + k = i by omega] at this

theorem l4_table_spec {n : Nat} (hn : n < 16) (h0 : n ≠ 0) : ∃ t, rd l4_table n = ok t ∧ IsLsb n t := by
  unfold IsLsb
  interval_cases n
  · omega
  all_goals (refine ⟨_, rfl, ?_, ?_⟩ <;> decide)

theorem find_lsb_32_ok {n : Nat} (h0 : n ≠ 0) (hn : n < 2 ^ 32) :
    ∃ r, find_lsb_32 n = ok r ∧ IsLsb n r := by
  obtain ⟨a1, a2, e1, a3, a4⟩ := lsbStep_spec (k := 16) (r := 0) hn h0
  obtain ⟨b1, b2, e2, b3, b4⟩ := lsbStep_spec (k := 8) (n := (lsbStep 16 (n, 0)).1)
    (r := (lsbStep 16 (n, 0)).2) a1 a2
  obtain ⟨c1, c2, e3, c3, c4⟩ := lsbStep_spec (k := 4) (n := (lsbStep 8 (lsbStep 16 (n, 0))).1)
    (r := (lsbStep 8 (lsbStep 16 (n, 0))).2) (by simpa using b1) (by simpa using b2)
  simp only [Prod.mk.eta] at b3 b4 c1 c2 c3 c4
  obtain ⟨t, ht1, ht2⟩ := l4_table_spec (by simpa using c1) c2
  refine ⟨_, ?_, a4 _ (b4 _ (c4 _ ht2))⟩
  unfold find_lsb_32
  simp only
  rw [ht1, ok_bind]; congr 1; omega

theorem find_lsb_64_ok {n : Nat} (h0 : n ≠ 0) (hn : n < 2 ^ 64) :
    ∃ r, find_lsb_64 n = ok r ∧ IsLsb n r := by
  unfold find_lsb_64
  simp only
  obtain ⟨a1, a2, e1, a3, a4⟩ := lsbStep_spec (k := 32) (r := 0) hn h0
  unfold lsbStep at a1 a2 a3 a4
  simp only at a1 a2 a3 a4
  split
  · rename_i h
    rw [if_pos h] at a1 a2 a3 a4
    obtain ⟨r, hr1, hr2⟩ := find_lsb_32_ok a2 a1
    have : e1 = 0 := by simpa using a3.symm
    subst this
    exact ⟨r, hr1, by simpa using a4 r hr2⟩
  · rename_i h
    rw [if_neg h] at a1 a2 a3 a4
    rw [Nat.mod_eq_of_lt a1]
    obtain ⟨r, hr1, hr2⟩ := find_lsb_32_ok a2 a1
    have : e1 = 32 := by simpa using a3.symm
    subst this
    exact ⟨r + 32, by rw [hr1]; rfl, by have := a4 r hr2; rwa [Nat.add_comm] at this⟩

/-! ### population count -/

/-- number of set bits among the low 8 -/
def byteBits (b : Nat) : Nat := ((List.range 8).filter fun i => b.testBit i).length

theorem byte_table_spec (b : Nat) (hb : b < 256) : rd byte_num_one_bits b = ok (byteBits b) := by
  have : ∀ b : Fin 256, rd byte_num_one_bits b.1 = ok (byteBits b.1) := by decide +kernel
  exact this ⟨b, hb⟩

theorem byteBits_le (b : Nat) : byteBits b ≤ 8 := by
  unfold byteBits
  exact (List.length_filter_le _ _).trans (by simp)

theorem count_one_bits_ok (p : List Nat) (nbytes : Nat) (hp : ∀ b ∈ p, b < 256)
    (hlen : nbytes ≤ p.length) (hsz : nbytes * 8 ≤ 2147483647) :
    count_one_bits p nbytes = ok (((p.take nbytes).map byteBits).sum : Int) := by
  rw [← Ok_eq_iff]
  unfold count_one_bits
  refine (forUp_ok (fun i (rv : Int) => rv = (((p.take i).map byteBits).sum : ℕ) ∧ rv ≤ i * 8)
    (Nat.zero_le _) (by simp) ?_).mono (fun rv h => ?_)
  · rintro i rv _ hi ⟨h1, h2⟩
    have hil : i < p.length := by omega
    rw [rd_ok hil, ok_bind, byte_table_spec _ (hp _ (List.getElem_mem hil)), ok_bind, iadd]
    have hle := byteBits_le p[i]
    have hnn : (0 : Int) ≤ rv := by rw [h1]; positivity
    rw [chk_ok (by constructor <;> omega), Ok_ok]
    refine ⟨?_, by push_cast; omega⟩
    rw [h1, ← List.take_concat_get' _ _ hil, List.map_append, List.sum_append]
    simp
  · rw [h.1]

end Spffl
