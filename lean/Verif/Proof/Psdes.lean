import Verif.Model.Psdes
import Mathlib.Logic.Function.Iterate
import Mathlib.Data.Fintype.Card
import Mathlib.SetTheory.Cardinal.Finite
import Mathlib.Data.Nat.ModEq
import Mathlib.Data.BitVec

namespace Spffl

/-- inverse round -/
def psdesUnround (k : W32 × W32) (w : W32 × W32) : W32 × W32 :=
  (w.2 ^^^ psdesF k.1 k.2 w.1, w.1)

theorem unround_round (k w) : psdesUnround k (psdesRound k w) = w := by
  obtain ⟨a, b⟩ := w
  simp [psdesUnround, psdesRound, BitVec.xor_assoc]

theorem round_unround (k w) : psdesRound k (psdesUnround k w) = w := by
  obtain ⟨a, b⟩ := w
  simp [psdesUnround, psdesRound, BitVec.xor_assoc]

theorem round_bijective (k) : Function.Bijective (psdesRound k) :=
  Function.bijective_iff_has_inverse.mpr ⟨psdesUnround k, unround_round k, round_unround k⟩

theorem foldl_round_bijective (ks : List (W32 × W32)) :
    Function.Bijective (fun w => ks.foldl (fun w k => psdesRound k w) w) := by
  induction ks with
  | nil => exact Function.bijective_id
  | cons k ks ih => exact ih.comp (round_bijective k)

theorem hash_bijective : Function.Bijective psdes_hash_64 := foldl_round_bijective _

/-! ### state counter -/

/-- numeric value of the state -/
def stVal (s : W32 × W32) : Nat := s.1.toNat * 2 ^ 32 + s.2.toNat

theorem stVal_lt (s) : stVal s < 2 ^ 64 := by
  have h1 := s.1.isLt
  have h2 := s.2.isLt
  unfold stVal; omega

theorem stVal_inj {s t : W32 × W32} (h : stVal s = stVal t) : s = t := by
  have h1 := s.1.isLt
  have h2 := s.2.isLt
  have h3 := t.1.isLt
  have h4 := t.2.isLt
  unfold stVal at h
  ext1 <;> apply BitVec.eq_of_toNat_eq <;> omega

theorem stVal_next (s) : stVal (psdesNext s) = (stVal s + 1) % 2 ^ 64 := by
  have h1 := s.1.isLt
  have h2 := s.2.isLt
  unfold psdesNext stVal
  simp only
  split
  · rename_i h
    have h0 : (s.2 + 1).toNat = 0 := by rw [h]; rfl
    have h0' : (s.2.toNat + 1) % 2 ^ 32 = 0 := by simpa [BitVec.toNat_add] using h0
    have e1 : (s.1 + 1).toNat = (s.1.toNat + 1) % 2 ^ 32 := by simp [BitVec.toNat_add]
    rw [h0, e1]; omega
  · rename_i h
    have h0 : (s.2 + 1).toNat = (s.2.toNat + 1) % 2 ^ 32 := by simp [BitVec.toNat_add]
    have h0' : (s.2.toNat + 1) % 2 ^ 32 ≠ 0 := by
      intro hc
      apply h; apply BitVec.eq_of_toNat_eq
      rw [h0, hc]; rfl
    show s.1.toNat * 2 ^ 32 + (s.2 + 1).toNat = (s.1.toNat * 2 ^ 32 + s.2.toNat + 1) % 2 ^ 64
    rw [h0]; omega

theorem stVal_iterate (n : Nat) (s) : stVal (psdesNext^[n] s) = (stVal s + n) % 2 ^ 64 := by
  induction n with
  | zero =>
    have := stVal_lt s
    rw [Function.iterate_zero, id_eq]; omega
  | succ n ih =>
    rw [Function.iterate_succ_apply', stVal_next, ih]
    omega

theorem run64_eq (n : Nat) (s) : run64 n s = psdes_hash_64 (psdesNext^[n] s) := by
  induction n generalizing s with
  | zero => rfl
  | succ n ih => rw [run64, ih]; rfl

theorem run32_eq (n : Nat) (s) : run32 n s = (psdes_hash_64 (psdesNext^[n] s)).2 := by
  induction n generalizing s with
  | zero => rfl
  | succ n ih => rw [run32, ih]; rfl

theorem iterate_bijOn (s) : Function.Bijective (fun n : Fin (2 ^ 64) => psdesNext^[n.1] s) := by
  constructor
  · intro a b h
    have h' : stVal (psdesNext^[a.1] s) = stVal (psdesNext^[b.1] s) := by
      simp only at h; rw [h]
    rw [stVal_iterate, stVal_iterate] at h'
    have := a.2; have := b.2; have := stVal_lt s
    ext; omega
  · intro t
    have h1 := stVal_lt s
    have h2 := stVal_lt t
    refine ⟨⟨(stVal t + 2 ^ 64 - stVal s) % 2 ^ 64, Nat.mod_lt _ (by norm_num)⟩, ?_⟩
    apply stVal_inj
    simp only
    rw [stVal_iterate]; omega

end Spffl
