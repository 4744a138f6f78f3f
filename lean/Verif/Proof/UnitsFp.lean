/-
fp_units.cpp, for every modulus from 2 to 46341.
-/
import Verif.Proof.UnitsF2
import Verif.Proof.CoefInst
import Mathlib.Data.ZMod.Units
import Mathlib.FieldTheory.Finite.Basic

namespace Spffl
open Res

namespace FpU
open IntMod (Rep)
variable {m : ℕ}

theorem res_eq {a : IntMod} {x : ZMod m} (h : Rep m a x) : a.residue = x.val := by
  haveI : NeZero m := ⟨by have := h.pos; omega⟩
  have h1 := h.2.1
  have h2 := h.2.2.1
  rw [← h.2.2.2, ZMod.val_intCast, Int.emod_eq_of_lt h1 h2]

theorem uref (hm2 : 2 ≤ m) (hm : m ≤ 46341) : Units.URef FpU.uops (Rep m) (ZMod.val (n := m)) where
  mul h h' := IntMod.mul_ok hm h h'
  recip := by
    intro a x h
    refine Ok.bind (IntMod.recip_ok hm2 hm IntMod.cacheOk_init h) ?_
    rintro ⟨o, c⟩ ⟨ho, _⟩
    rw [Ok_ok]
    cases o <;> exact ho
  exp := by
    intro a x e h h1 h2
    show (do let r ← IntMod.exp IntMod.Cache.init a e; ok r.1 : Res IntMod).Ok _
    unfold IntMod.exp
    rw [if_neg (by omega)]
    obtain ⟨r, hr, hrr⟩ := IntMod.expNonneg_ok hm h (e := e) (by omega) (by unfold INT_MAX at h2; unfold InInt; omega) (Or.inl (by omega))
    rw [hr]
    simpa using hrr
  div := by
    intro a x h hx
    refine Ok.bind (IntMod.div_ok hm2 hm IntMod.cacheOk_init h h hx) ?_
    rintro r ⟨⟨q, hq, e⟩, _⟩
    rw [Ok_ok]
    have : q = 1 := hx.mul_right_cancel (by rw [e, one_mul])
    exact this ▸ hq
  eq := by
    intro a b x y h h'
    show (IntMod.eq a b).Ok _
    rw [IntMod.eq_ok h h', Ok_ok]; simp
  lt := by
    intro a b x y h h'
    show (IntMod.lt a b).Ok _
    unfold IntMod.lt
    rw [IntMod.check_moduli_ok h h', ok_bind, Ok_ok, decide_eq_true_iff, res_eq h, res_eq h']
    omega
  key_inj := by
    haveI : NeZero m := ⟨by omega⟩
    exact ZMod.val_injective m

theorem gcd_val (hm : m ≤ 46341) {r : ℕ} (hr : r < m) : ∃ g, int_gcd r m = ok g ∧ (g = 1 ↔ IsUnit (r : ZMod m)) := by
  have hu : IsUnit (r : ZMod m) ↔ Nat.gcd r m = 1 := by
    rw [ZMod.isUnit_iff_coprime]
  rcases Nat.eq_zero_or_pos r with h0 | h0
  · subst h0
    refine ⟨m, int_gcd_zero_left _, ?_⟩
    rw [hu, Nat.gcd_zero_left]; omega
  · refine ⟨_, int_gcd_nonzero (by unfold InInt; omega) (by unfold InInt; omega) (by omega) (by omega) (by unfold INT_MIN; omega)
      (by unfold INT_MIN; omega), ?_⟩
    rw [hu, Int.gcd_natCast_natCast]; omega

theorem totient_card (hm2 : 2 ≤ m) (hm : m ≤ 46341) : int_totient m = ok (Nat.card (ZMod m)ˣ : Int) := by
  haveI : NeZero m := ⟨by omega⟩
  have := int_totient_ok (n := m) (by omega) (by unfold InInt; omega)
  rw [this]
  congr 2
  rw [Nat.card_eq_fintype_card, ZMod.card_units_eq_totient]; simp

theorem card_le (hm2 : 2 ≤ m) : Nat.card (ZMod m)ˣ ≤ m - 1 := by
  haveI : NeZero m := ⟨by omega⟩
  rw [Nat.card_eq_fintype_card, ZMod.card_units_eq_totient]
  have := Nat.totient_lt m (by omega)
  omega

theorem order_ok (hm2 : 2 ≤ m) (hm : m ≤ 46341) {a : IntMod} {x : ZMod m} (ha : Rep m a x) (hx : IsUnit x) :
    order a = ok (orderOf x : Int) := by
  haveI : NeZero m := ⟨by omega⟩
  unfold order
  obtain ⟨g, h1, h2⟩ := gcd_val hm (r := x.val) (ZMod.val_lt x)
  rw [ZMod.natCast_zmod_val] at h2
  rw [res_eq ha, ha.1, h1, ok_bind, if_neg (by rw [ne_eq, h2]; simpa using hx), totient_card hm2 hm, ok_bind]
  obtain ⟨o1, o2, o3, o4⟩ := orderOf_facts hx
  have hc := card_le hm2
  obtain ⟨L, hL, hs, hmem⟩ := Units.phi_divisors_ok o4 (by omega) (Units.powOk_of_small o4 (by omega))
  rw [hL, ok_bind]
  obtain ⟨one, hone, honer⟩ := IntMod.mk'_ok (m := m) (by omega) (by unfold InInt; omega) (r := 1) (by decide)
  rw [hone, ok_bind]
  refine Units.orderLoop_ok (uref hm2 hm) ha (by simpa using honer) o1 L (fun d hd => ?_) hs ((hmem _).mpr ⟨by omega, by exact_mod_cast o2⟩)
  obtain ⟨d1, d2⟩ := (hmem d).mp hd
  have := Int.le_of_dvd (by omega) d2
  exact ⟨d1, by unfold INT_MAX; omega⟩

theorem order_throw (hm2 : 2 ≤ m) (hm : m ≤ 46341) {a : IntMod} {x : ZMod m} (ha : Rep m a x) (hx : ¬ IsUnit x) :
    order a = throw := by
  haveI : NeZero m := ⟨by omega⟩
  unfold order
  obtain ⟨g, h1, h2⟩ := gcd_val hm (r := x.val) (ZMod.val_lt x)
  rw [ZMod.natCast_zmod_val] at h2
  rw [res_eq ha, ha.1, h1, ok_bind, if_pos (by rw [ne_eq, h2]; exact hx)]

theorem genLoop_ok (hm2 : 2 ≤ m) (hm : m ≤ 46341) : ∀ (k n : ℕ), 1 ≤ n → n ≤ m → m < n + k →
    (genLoop m (Nat.card (ZMod m)ˣ : Int) k n).Ok fun r =>
      (r = none ∧ ∀ i, n ≤ i → i < m → ¬ (IsUnit (i : ZMod m) ∧ orderOf (i : ZMod m) = Nat.card (ZMod m)ˣ)) ∨
      ∃ g c, r = some g ∧ n ≤ c ∧ c < m ∧ Rep m g (c : ZMod m) ∧ IsUnit (c : ZMod m) ∧ orderOf (c : ZMod m) = Nat.card (ZMod m)ˣ ∧
        ∀ i, n ≤ i → i < c → ¬ (IsUnit (i : ZMod m) ∧ orderOf (i : ZMod m) = Nat.card (ZMod m)ˣ) := by
  haveI : NeZero m := ⟨by omega⟩
  intro k
  induction k with
  | zero => intro n _ _ _; omega
  | succ k ih =>
    intro n h1 h2 h3
    unfold genLoop
    by_cases hn : n < m
    · rw [if_pos (by omega)]
      have next : ¬ (IsUnit (n : ZMod m) ∧ orderOf (n : ZMod m) = Nat.card (ZMod m)ˣ) →
          (do let gres ← iadd (n : Int) 1; genLoop m (Nat.card (ZMod m)ˣ : Int) k gres).Ok fun r =>
      (r = none ∧ ∀ i, n ≤ i → i < m → ¬ (IsUnit (i : ZMod m) ∧ orderOf (i : ZMod m) = Nat.card (ZMod m)ˣ)) ∨
      ∃ g c, r = some g ∧ n ≤ c ∧ c < m ∧ Rep m g (c : ZMod m) ∧ IsUnit (c : ZMod m) ∧ orderOf (c : ZMod m) = Nat.card (ZMod m)ˣ ∧
        ∀ i, n ≤ i → i < c → ¬ (IsUnit (i : ZMod m) ∧ orderOf (i : ZMod m) = Nat.card (ZMod m)ˣ) := by
        intro hno
        rw [show iadd (n : Int) 1 = chk ((n : Int) + 1) from rfl, chk_ok (by unfold InInt; omega), ok_bind]
        refine (ih (n + 1) (by omega) (by omega) (by omega)).mono fun r hr => ?_
        rcases hr with ⟨rfl, hr⟩ | ⟨g, c, rfl, c1, c2, c3, c4, c5, c6⟩
        · left
          refine ⟨rfl, fun i hi1 hi2 => ?_⟩
          rcases Nat.eq_or_lt_of_le hi1 with rfl | hi
          · exact hno
          · exact hr i hi hi2
        · right
          refine ⟨g, c, rfl, by omega, c2, c3, c4, c5, fun i hi1 hi2 => ?_⟩
          rcases Nat.eq_or_lt_of_le hi1 with rfl | hi
          · exact hno
          · exact c6 i hi hi2
      obtain ⟨g, hg, hgu⟩ := gcd_val hm hn
      rw [hg, ok_bind]
      by_cases hu : IsUnit (n : ZMod m)
      · rw [if_neg (by rw [ne_eq, hgu]; simpa using hu)]
        obtain ⟨a, ha, har⟩ := IntMod.mk'_ok (m := m) (by omega) (by unfold InInt; omega) (r := n) (by unfold InInt; omega)
        rw [Int.cast_natCast] at har
        rw [ha, ok_bind, order_ok hm2 hm har hu, ok_bind]
        by_cases ho : orderOf (n : ZMod m) = Nat.card (ZMod m)ˣ
        · rw [if_pos (by exact_mod_cast ho), Ok_ok]
          exact Or.inr ⟨a, n, rfl, le_rfl, hn, har, hu, ho, fun i _ _ => by omega⟩
        · rw [if_neg (by exact_mod_cast ho)]
          exact next fun h => ho h.2
      · rw [if_pos (by rw [ne_eq, hgu]; exact hu)]
        exact next fun h => hu h.1
    · rw [if_neg (by omega), Ok_ok]
      exact Or.inl ⟨rfl, fun i _ _ => by omega⟩

theorem find_generator_ok (hm2 : 2 ≤ m) (hm : m ≤ 46341) :
    (find_generator m).Ok fun r => match r with
      | none => ∀ x : ZMod m, IsUnit x → orderOf x ≠ Nat.card (ZMod m)ˣ
      | some g => ∃ x : ZMod m, Rep m g x ∧ IsUnit x ∧ orderOf x = Nat.card (ZMod m)ˣ ∧
          ∀ y : ZMod m, IsUnit y → orderOf y = Nat.card (ZMod m)ˣ → x.val ≤ y.val := by
  haveI : NeZero m := ⟨by omega⟩
  haveI : Fact (1 < m) := ⟨by omega⟩
  have hv0 : ∀ y : ZMod m, IsUnit y → 1 ≤ y.val := by
    intro y hy
    rcases Nat.eq_zero_or_pos y.val with h | h
    · rw [ZMod.val_eq_zero] at h
      rw [h] at hy; exact absurd hy not_isUnit_zero
    · exact h
  unfold find_generator
  rw [totient_card hm2 hm, ok_bind, Int.toNat_natCast]
  refine (genLoop_ok hm2 hm (m + 1) 1 le_rfl (by omega) (by omega)).mono fun r hr => ?_
  rcases hr with ⟨rfl, hr⟩ | ⟨g, c, rfl, c1, c2, c3, c4, c5, c6⟩
  · intro x hx ho
    have := hr x.val (hv0 x hx) (ZMod.val_lt x)
    rw [ZMod.natCast_zmod_val] at this
    exact this ⟨hx, ho⟩
  · refine ⟨_, c3, c4, c5, fun y hy ho => ?_⟩
    rw [ZMod.val_natCast_of_lt c2]
    by_contra hlt
    have := c6 y.val (hv0 y hy) (by omega)
    rw [ZMod.natCast_zmod_val] at this
    exact this ⟨hy, ho⟩

theorem log_ok (hm2 : 2 ≤ m) (hm : m ≤ 46341) {qs : List (IntMod × ℕ) → List (IntMod × ℕ)} (hqs : IsQsort IntMod.lt qs)
    {g a : IntMod} {w x : ZMod m} (hg : Rep m g w) (ha : Rep m a x) :
    (IsUnit w → ((log qs g a = throw ∧ ¬ ∃ r : ℕ, w ^ r = x) ∨
      ∃ r : ℕ, log qs g a = ok (r : Int) ∧ r < Nat.card (ZMod m)ˣ ∧ w ^ r = x)) ∧
    (¬ IsUnit w → log qs g a = throw) := by
  haveI : NeZero m := ⟨by omega⟩
  unfold log
  obtain ⟨k, h1, h2, h3, h4⟩ := Units.sqrt_ceil_ok (n := m) (by omega) (by omega)
  rw [hg.1, h1, ok_bind, Int.toNat_natCast]
  refine ⟨fun hw => ?_, fun hw => by rw [Units.bsgs_nonunit (uref hm2 hm) qs a hg hw h2]; rfl⟩
  obtain ⟨o1, o2, o3, o4⟩ := orderOf_facts hw
  have hc := card_le hm2
  rcases Units.bsgs_ok (uref hm2 hm) hqs hg ha hw h2 h4 o1 (by omega) with ⟨e1, e2⟩ | ⟨r, e1, e3, e2⟩
  · left; rw [e1]; exact ⟨rfl, e2⟩
  · right
    rw [e1, ok_bind, totient_card hm2 hm, ok_bind, imod_nonneg_ok (by omega) (by omega) (by omega)]
    refine ⟨r % Nat.card (ZMod m)ˣ, by push_cast; rfl, Nat.mod_lt _ o4, ?_⟩
    rw [← e2]
    conv_rhs => rw [← pow_mod_orderOf]
    rw [← pow_mod_orderOf, Nat.mod_mod_of_dvd _ o2]

end FpU
end Spffl
