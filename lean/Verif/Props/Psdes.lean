/- Property theorems C66 (the hash is a permutation) and C67 (generator period and distribution). -/
import Verif.Proof.Psdes

namespace Spffl

/-- C66: `psdes_hash_64` is a permutation of the 64-bit words. -/
theorem C66_hash_bijective : Function.Bijective psdes_hash_64 := hash_bijective

/-- Test against the values documented in psdes.h (a sample, not a proof). -/
example : psdes_hash_64 (0x00000002, 0xfffffffc) = (0x57733ef0, 0x998adaea) := by decide +kernel

/-- C67: the state sequence has period exactly 2^64 from every seed: it returns to the seed after `n`
calls exactly when 2^64 divides `n`. -/
theorem C67_state_period (s : W32 × W32) (n : Nat) :
    (fun s => (iran64_r s).2)^[n] s = s ↔ 2 ^ 64 ∣ n := by
  have hfun : (fun s => (iran64_r s).2) = psdesNext := rfl
  rw [hfun]
  have h1 := stVal_lt s
  constructor
  · intro h
    have h' := stVal_iterate n s
    rw [h] at h'
    omega
  · intro h
    apply stVal_inj
    rw [stVal_iterate]
    omega

/-- C67: over one period starting anywhere, every 64-bit word is output exactly once. -/
theorem C67_outputs_once (s : W32 × W32) (w : W32 × W32) : ∃! n : Fin (2 ^ 64), run64 n s = w := by
  have hb : Function.Bijective (fun n : Fin (2 ^ 64) => run64 n s) := by
    have : (fun n : Fin (2 ^ 64) => run64 n s) =
        psdes_hash_64 ∘ (fun n : Fin (2 ^ 64) => psdesNext^[n.1] s) := by
      funext n; exact run64_eq n.1 s
    rw [this]; exact hash_bijective.comp (iterate_bijOn s)
  exact hb.existsUnique w

/-- C67: over one period each 32-bit word is output by `iran32_r` exactly 2^32 times. -/
theorem C67_outputs32_uniform (s : W32 × W32) (w : W32) :
    Nat.card {n : Fin (2 ^ 64) // run32 n s = w} = 2 ^ 32 := by
  have hb : Function.Bijective (fun n : Fin (2 ^ 64) => run64 n s) := by
    have : (fun n : Fin (2 ^ 64) => run64 n s) =
        psdes_hash_64 ∘ (fun n : Fin (2 ^ 64) => psdesNext^[n.1] s) := by
      funext n; exact run64_eq n.1 s
    rw [this]; exact hash_bijective.comp (iterate_bijOn s)
  let e := Equiv.ofBijective _ hb
  have he : ∀ n : Fin (2 ^ 64), run32 n s = (e n).2 := by
    intro n
    show run32 n s = (run64 n s).2
    rw [run32_eq, run64_eq]
  have e1 : {n : Fin (2 ^ 64) // run32 n s = w} ≃ {p : W32 × W32 // p.2 = w} :=
    e.subtypeEquiv fun n => by rw [he]
  have e2 : {p : W32 × W32 // p.2 = w} ≃ W32 :=
    { toFun := fun p => p.1.1
      invFun := fun a => ⟨(a, w), rfl⟩
      left_inv := by rintro ⟨⟨a, b⟩, rfl⟩; rfl
      right_inv := fun a => rfl }
  have e3 : W32 ≃ Fin (2 ^ 32) := ⟨BitVec.toFin, BitVec.ofFin, fun _ => rfl, fun _ => rfl⟩
  rw [Nat.card_congr ((e1.trans e2).trans e3), Nat.card_fin]

example : run64 3 (0, 0xffffffff) = psdes_hash_64 (1, 2) := by decide +kernel

end Spffl
