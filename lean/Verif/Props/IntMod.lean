/-
Property theorems for residue classes (C12 - C16).  Statements are in plain integer arithmetic:
`x % m` is the Euclidean remainder, `⟨x, m⟩` the object with residue `x` and modulus `m`.
-/
import Verif.Proof.IntMod
import Mathlib.Tactic.NormNum.Prime

namespace Spffl
open Res
namespace IntMod

theorem rep_mk {m : ℕ} {x : Int} (h0 : 0 ≤ x) (h1 : x < m) : Rep m ⟨x, m⟩ (x : ZMod m) :=
  ⟨rfl, h0, h1, rfl⟩

theorem rep_int {m : ℕ} {r : IntMod} {k : Int} (h : Rep m r (k : ZMod m)) : r = ⟨k % m, m⟩ := by
  have hm := h.pos
  refine Rep.inj h ⟨rfl, Int.emod_nonneg _ (by omega), Int.emod_lt_of_pos _ (by omega), ?_⟩
  show (((k % m : Int)) : ZMod m) = _
  rw [ZMod.intCast_eq_intCast_iff]; exact Int.mod_modEq _ _

/-! ### C12 -/

/-- Construction from any int yields the canonical residue; non-positive moduli throw. -/
theorem C12_construct (r m : Int) (hr : InInt r) (hm : InInt m) :
    mk' r m = if m ≤ 0 then throw else ok ⟨r % m, m⟩ := by
  split
  · rename_i h; simp [mk', h]
  · rename_i h
    lift m to ℕ using by omega
    obtain ⟨a, ha, hrep⟩ := mk'_ok (by omega) hm hr
    rw [ha, rep_int hrep]

example : mk' (-3) 7 = ok ⟨4, 7⟩ := by decide

/-- Addition, for every modulus: the canonical sum, or overflow when the integer sum does not fit. -/
theorem C12_add (m x y : Int) (hm : InInt m) (hx : 0 ≤ x ∧ x < m) (hy : 0 ≤ y ∧ y < m) :
    add ⟨x, m⟩ ⟨y, m⟩ = if x + y ≤ INT_MAX then ok ⟨(x + y) % m, m⟩ else ub := by
  lift m to ℕ using by omega
  have hck := check_moduli_ok (rep_mk hx.1 hx.2) (rep_mk hy.1 hy.2)
  unfold add
  rw [hck, ok_bind]
  unfold INT_MAX
  split
  · have hin : InInt (x + y) := by unfold InInt; omega
    simp only [iadd, chk_ok hin, ok_bind]
    rw [C12_construct _ _ hin hm, if_neg (by omega)]
  · have hin : ¬ InInt (x + y) := by unfold InInt; omega
    simp [iadd, chk_ub hin]

example : add ⟨5, 7⟩ ⟨6, 7⟩ = ok ⟨4, 7⟩ := by decide

/-- Subtraction (no overflow for moduli up to 2^30). -/
theorem C12_sub (m x y : Int) (hm : InInt m) (hx : 0 ≤ x ∧ x < m) (hy : 0 ≤ y ∧ y < m) :
    sub ⟨x, m⟩ ⟨y, m⟩ = if m + x ≤ INT_MAX then ok ⟨(x - y) % m, m⟩ else ub := by
  lift m to ℕ using by omega
  have hck := check_moduli_ok (rep_mk hx.1 hx.2) (rep_mk hy.1 hy.2)
  unfold sub
  rw [hck, ok_bind]
  unfold INT_MAX
  unfold InInt at hm
  split
  · have hin : InInt (m + x) := by unfold InInt; omega
    have hin2 : InInt (m + x - y) := by unfold InInt; omega
    simp only [iadd, isub, chk_ok hin, chk_ok hin2, ok_bind]
    rw [C12_construct _ _ hin2 hm, if_neg (by omega)]
    rw [show (m + x - y : Int) = (x - y) + m by ring, Int.add_emod_right]
  · have hin : ¬ InInt (m + x) := by unfold InInt; omega
    simp [iadd, chk_ub hin]

example : sub ⟨2, 7⟩ ⟨6, 7⟩ = ok ⟨3, 7⟩ := by decide

/-- Unary minus, for every modulus. -/
theorem C12_neg (m x : Int) (hm : InInt m) (hx : 0 ≤ x ∧ x < m) :
    neg ⟨x, m⟩ = ok ⟨(-x) % m, m⟩ := by
  lift m to ℕ using by omega
  have hck := check_modulus_ok (rep_mk hx.1 hx.2)
  unfold neg
  rw [hck, ok_bind]
  unfold InInt at hm
  have hin : InInt (m - x) := by unfold InInt; omega
  simp only [isub, chk_ok hin, ok_bind]
  rw [C12_construct _ _ hin hm, if_neg (by omega)]
  rw [show (m - x : Int) = (-x) + m by ring, Int.add_emod_right]

example : neg ⟨2, 7⟩ = ok ⟨5, 7⟩ := by decide

/-- Multiplication, exactly: the canonical product, or overflow when the integer product does not fit. -/
theorem C12_mul (m x y : Int) (hm : InInt m) (hx : 0 ≤ x ∧ x < m) (hy : 0 ≤ y ∧ y < m) :
    mul ⟨x, m⟩ ⟨y, m⟩ = if x * y ≤ INT_MAX then ok ⟨(x * y) % m, m⟩ else ub := by
  lift m to ℕ using by omega
  have hck := check_moduli_ok (rep_mk hx.1 hx.2) (rep_mk hy.1 hy.2)
  unfold mul
  rw [hck, ok_bind]
  unfold INT_MAX
  have h0 := mul_nonneg hx.1 hy.1
  split
  · have hin : InInt (x * y) := by unfold InInt; omega
    simp only [imul, chk_ok hin, ok_bind]
    rw [C12_construct _ _ hin hm, if_neg (by omega)]
  · have hin : ¬ InInt (x * y) := by unfold InInt; omega
    simp [imul, chk_ub hin]

/-- For moduli up to 46341 no product overflows. -/
theorem C12_mul_safe (m x y : Int) (hm : m ≤ 46341) (hx : 0 ≤ x ∧ x < m) (hy : 0 ≤ y ∧ y < m) :
    mul ⟨x, m⟩ ⟨y, m⟩ = ok ⟨(x * y) % m, m⟩ := by
  rw [C12_mul m x y (by unfold InInt; omega) hx hy, if_pos]
  lift m to ℕ using by omega
  exact (mul_bound (by exact_mod_cast hm) hx.1 hx.2 hy.1 hy.2).2

example : mul ⟨46340, 46341⟩ ⟨46340, 46341⟩ = ok ⟨1, 46341⟩ := by decide +kernel

/-- The bound is sharp: for every larger modulus the product `(m-1)*(m-1)` is undefined. -/
theorem C12_mul_violated (m : Int) (hm : 46341 < m) (hm' : InInt m) :
    mul ⟨m - 1, m⟩ ⟨m - 1, m⟩ = ub := by
  rw [C12_mul m _ _ hm' (by omega) (by omega), if_neg]
  unfold INT_MAX
  nlinarith

example : (46341 : Int) < 65537 ∧ InInt 65537 := by decide

/-- Mixed residue/int operations. -/
theorem C12_mixed (m x k : Int) (hm : InInt m) (hx : 0 ≤ x ∧ x < m) :
    (InInt (x + k) → addInt ⟨x, m⟩ k = ok ⟨(x + k) % m, m⟩) ∧
    (InInt (m + x) → InInt (m + x - k) → subInt ⟨x, m⟩ k = ok ⟨(x - k) % m, m⟩) ∧
    (InInt (x * k) → mulInt ⟨x, m⟩ k = ok ⟨(x * k) % m, m⟩) := by
  refine ⟨fun h => ?_, fun h h' => ?_, fun h => ?_⟩
  · simp only [addInt, iadd, chk_ok h, ok_bind]
    rw [C12_construct _ _ h hm, if_neg (by omega)]
  · simp only [subInt, iadd, isub, chk_ok h, chk_ok h', ok_bind]
    rw [C12_construct _ _ h' hm, if_neg (by omega),
      show m + x - k = (x - k) + m by ring, Int.add_emod_right]
  · simp only [mulInt, imul, chk_ok h, ok_bind]
    rw [C12_construct _ _ h hm, if_neg (by omega)]

example : addInt ⟨5, 7⟩ (-20) = ok ⟨6, 7⟩ ∧ subInt ⟨5, 7⟩ 20 = ok ⟨6, 7⟩ ∧
    mulInt ⟨5, 7⟩ (-3) = ok ⟨6, 7⟩ := by decide

/-! ### C13 -/

/-- A history of `recip` calls threading the shared cache. -/
def recipAll (c : Cache) : List IntMod → Res (List (Option IntMod))
  | [] => ok []
  | a :: l => do
    let (r, c) ← recip c a
    let rs ← recipAll c l
    ok (r :: rs)

/-- Specification of a reciprocal in plain integers. -/
def IsRecip (a : IntMod) (r : Option IntMod) : Prop :=
  if Int.gcd a.residue a.modulus = 1 then
    ∃ y, r = some ⟨y, a.modulus⟩ ∧ 0 ≤ y ∧ y < a.modulus ∧ (a.residue * y) % a.modulus = 1
  else r = none

theorem isUnit_iff_gcd {m : ℕ} {x : Int} : IsUnit (x : ZMod m) ↔ Int.gcd x m = 1 := by
  rw [ZMod.coe_int_isUnit_iff_isCoprime, isCoprime_comm, Int.isCoprime_iff_gcd_eq_one]

theorem isRecip_of_spec {m : ℕ} (hm2 : 2 ≤ m) {a : IntMod} {z : ZMod m} (h : Rep m a z)
    {r : Option IntMod} (hs : RecipSpec m z r) : IsRecip a r := by
  have hu : IsUnit z ↔ Int.gcd a.residue a.modulus = 1 := by
    rw [← h.2.2.2, isUnit_iff_gcd, h.1]
  unfold IsRecip
  cases r with
  | none =>
    have : ¬ Int.gcd a.residue a.modulus = 1 := fun hh => hs (hu.mpr hh)
    simp [this]
  | some b =>
    obtain ⟨w, hw, hzw⟩ := hs
    rw [if_pos (hu.mp (IsUnit.of_mul_eq_one _ hzw))]
    refine ⟨b.residue, ?_, hw.2.1, by rw [h.1]; exact hw.2.2.1, ?_⟩
    · rw [h.1, ← hw.1]
    · rw [h.1]
      have : ((a.residue * b.residue : Int) : ZMod m) = ((1 : Int) : ZMod m) := by
        push_cast; rw [h.2.2.2, hw.2.2.2, hzw]
      rw [ZMod.intCast_eq_intCast_iff] at this
      rw [this]; exact Int.emod_eq_of_lt (by norm_num) (by omega)

/-- Along every history of calls, on residues of any moduli in 2..46341, every answer is right. -/
theorem C13_recip_history (l : List IntMod)
    (hl : ∀ a ∈ l, 2 ≤ a.modulus ∧ a.modulus ≤ 46341 ∧ 0 ≤ a.residue ∧ a.residue < a.modulus) :
    ∃ rs, recipAll Cache.init l = ok rs ∧ List.Forall₂ IsRecip l rs := by
  suffices ∀ c, CacheOk c → ∃ rs, recipAll c l = ok rs ∧ List.Forall₂ IsRecip l rs from
    this _ cacheOk_init
  induction l with
  | nil => intro c _; exact ⟨[], rfl, List.Forall₂.nil⟩
  | cons a l ih =>
    intro c hc
    obtain ⟨h2, h3, h4, h5⟩ := hl a (by simp)
    obtain ⟨m, hm⟩ : ∃ m : ℕ, a.modulus = m := ⟨a.modulus.toNat, by omega⟩
    have hrep : Rep m a (a.residue : ZMod m) := ⟨hm, h4, by omega, rfl⟩
    obtain ⟨⟨r, c'⟩, hr, hs, hc'⟩ := recip_ok (by omega) (by omega) hc hrep
    obtain ⟨rs, hrs, hf⟩ := ih (fun b hb => hl b (by simp [hb])) c' hc'
    refine ⟨r :: rs, ?_, List.Forall₂.cons (isRecip_of_spec (by omega) hrep hs) hf⟩
    simp [recipAll, hr, hrs]

example : recipAll Cache.init [⟨3, 7⟩, ⟨2, 6⟩, ⟨5, 6⟩, ⟨3, 7⟩] =
    ok [some ⟨5, 7⟩, none, some ⟨5, 6⟩, some ⟨5, 7⟩] := by decide +kernel

/-- The specification determines the answer, so no earlier history can change it. -/
theorem C13_recip_unique (a : IntMod) (r r' : Option IntMod) (h : IsRecip a r) (h' : IsRecip a r') :
    r = r' := by
  unfold IsRecip at h h'
  split at h
  · rename_i hg
    rw [if_pos hg] at h'
    obtain ⟨y, rfl, y0, y1, hy⟩ := h
    obtain ⟨y', rfl, y0', y1', hy'⟩ := h'
    have hm : 0 < a.modulus := by omega
    have e1 : a.residue * y ≡ a.residue * y' [ZMOD a.modulus] := by
      unfold Int.ModEq; rw [hy, hy']
    have e2 : y ≡ y' [ZMOD a.modulus] := by
      have := e1.cancel_left_div_gcd hm
      rwa [Int.gcd_comm, hg, Int.natCast_one, Int.ediv_one] at this
    unfold Int.ModEq at e2
    rw [Int.emod_eq_of_lt y0 y1, Int.emod_eq_of_lt y0' y1'] at e2
    rw [e2]
  · rename_i hg
    rw [if_neg hg] at h'
    rw [h, h']

example : IsRecip ⟨3, 7⟩ (some ⟨5, 7⟩) := by
  unfold IsRecip; rw [if_pos (by decide)]; exact ⟨5, rfl, by decide⟩

/-- Division, for any state of the cache reachable through the invariant: exactly the units divide. -/
theorem C13_div (c : Cache) (hc : CacheOk c) (m x y : Int) (h2 : 2 ≤ m) (hm : m ≤ 46341)
    (hx : 0 ≤ x ∧ x < m) (hy : 0 ≤ y ∧ y < m) :
    if Int.gcd y m = 1 then
      ∃ q c', div c ⟨x, m⟩ ⟨y, m⟩ = ok (⟨q, m⟩, c') ∧ CacheOk c' ∧ 0 ≤ q ∧ q < m ∧ (q * y) % m = x
    else div c ⟨x, m⟩ ⟨y, m⟩ = throw := by
  lift m to ℕ using by omega
  have hX := rep_mk hx.1 hx.2
  have hY := rep_mk hy.1 hy.2
  have hu : IsUnit (y : ZMod m) ↔ _ := isUnit_iff_gcd
  split
  · rename_i hg
    obtain ⟨⟨q, c'⟩, hq, ⟨w, hw, hz⟩, hc'⟩ := div_ok (by omega) (by omega) hc hX hY (hu.mpr hg)
    simp only at hw hc'
    refine ⟨q.residue, c', ?_, hc', hw.2.1, hw.2.2.1, ?_⟩
    · rw [hq, ← hw.1]
    · have : ((q.residue * y : Int) : ZMod m) = (x : ZMod m) := by
        push_cast; rw [hw.2.2.2, hz]
      rw [ZMod.intCast_eq_intCast_iff] at this
      rw [this]; exact Int.emod_eq_of_lt hx.1 hx.2
  · rename_i hg
    exact div_throw (by omega) (by omega) hc hX hY (fun h => hg (hu.mp h))

example : (div Cache.init ⟨2, 7⟩ ⟨3, 7⟩ = ok (⟨3, 7⟩, ⟨7, 6⟩)) ∧
    (div ⟨7, 6⟩ ⟨2, 6⟩ ⟨3, 6⟩ = throw) := by decide +kernel

/-- Beyond 46341 the reciprocal can overflow: `65536` is a unit mod 65537, yet the call is undefined. -/
theorem C13_violated_large : Int.gcd 65536 65537 = 1 ∧ recip Cache.init ⟨65536, 65537⟩ = ub := by
  refine ⟨by decide +kernel, ?_⟩
  have hp : Nat.Prime 65537 := by norm_num
  obtain ⟨h, -⟩ := refill_ok cacheOk_init (m := 65537) (by norm_num) (by decide)
  rw [Nat.totient_prime hp] at h
  unfold recip
  simp only [Nat.cast_ofNat] at h
  simp only [check_modulus]
  norm_num [h]
  decide +kernel

/-- Modulus 1: every residue is a unit of the zero ring, but `recip` throws. -/
theorem C13_modulus_one (c : Cache) (hc : CacheOk c) : recip c ⟨0, 1⟩ = throw := by
  have ht : int_totient 1 = ok 0 := by decide
  unfold recip
  have hr : refill c 1 = ok ⟨1, 0⟩ := by
    unfold refill
    split
    · rw [ht]; rfl
    · rename_i h
      have h1 : c.mlast = 1 := (not_not.mp h).symm
      have h2 := hc.2
      rw [h1, ht] at h2
      cases c; simp_all
  simp only [check_modulus, hr, ok_bind]
  rfl

example : CacheOk Cache.init := cacheOk_init

/-! ### C14 -/

theorem rep_pow {m : ℕ} {r : IntMod} {x : Int} {k : ℕ} (h : Rep m r ((x : ZMod m) ^ k)) :
    r = ⟨x ^ k % m, m⟩ := by
  apply rep_int; simpa using h

/-- Positive exponents. -/
theorem C14_exp_pos (c : Cache) (m x e : Int) (hm : m ≤ 46341) (hx : 0 ≤ x ∧ x < m) (he : 0 < e)
    (he' : InInt e) : exp c ⟨x, m⟩ e = ok (⟨x ^ e.toNat % m, m⟩, c) := by
  lift m to ℕ using by omega
  obtain ⟨r, hr, hrep⟩ := expNonneg_ok (by omega) (rep_mk hx.1 hx.2) he.le he' (Or.inl (by omega))
  unfold exp
  rw [if_neg (by omega), hr, ok_bind, rep_pow hrep]

example : exp Cache.init ⟨3, 7⟩ 100 = ok (⟨4, 7⟩, Cache.init) := by decide +kernel

/-- Exponent zero: one for a non-zero residue, an exception for `0^0`. -/
theorem C14_exp_zero (c : Cache) (m x : Int) (hm : m ≤ 46341) (hx : 0 ≤ x ∧ x < m) :
    exp c ⟨x, m⟩ 0 = if x = 0 then throw else ok (⟨1 % m, m⟩, c) := by
  lift m to ℕ using by omega
  have hX := rep_mk hx.1 hx.2
  split
  · rename_i h0
    subst h0
    obtain ⟨o, ho, -⟩ := mk'_ok hX.pos (by unfold InInt; omega : InInt m) (r := 1) (by decide)
    obtain ⟨z, hz, hzr⟩ := mk'_ok hX.pos (by unfold InInt; omega : InInt m) (r := 0) (by decide)
    unfold exp expNonneg
    rw [check_modulus_ok hX]
    simp only [ok_bind, lt_irrefl, if_false, ho, hz, if_true]
    rw [eq_ok hX hzr]; simp
  · rename_i h0
    have hz : (x : ZMod m) ≠ 0 := by
      intro h
      rw [ZMod.intCast_zmod_eq_zero_iff_dvd] at h
      exact h0 (Int.eq_zero_of_dvd_of_nonneg_of_lt hx.1 hx.2 h)
    obtain ⟨r, hr, hrep⟩ := expNonneg_ok (by omega) hX (le_refl 0) (by decide) (Or.inr hz)
    unfold exp
    rw [if_neg (by omega), hr, ok_bind, rep_pow hrep]; simp

example : exp Cache.init ⟨3, 7⟩ 0 = ok (⟨1, 7⟩, Cache.init) ∧ exp Cache.init ⟨0, 7⟩ 0 = throw := by
  decide +kernel

/-- Negative exponents: the power of the inverse for units, an exception otherwise. -/
theorem C14_exp_neg (c : Cache) (hc : CacheOk c) (m x e : Int) (h2 : 2 ≤ m) (hm : m ≤ 46341)
    (hx : 0 ≤ x ∧ x < m) (he : e < 0) (he' : InInt e) (hmin : e ≠ INT_MIN) :
    if Int.gcd x m = 1 then
      ∃ y c', 0 ≤ y ∧ y < m ∧ (x * y) % m = 1 ∧ CacheOk c' ∧
        exp c ⟨x, m⟩ e = ok (⟨y ^ (-e).toNat % m, m⟩, c')
    else exp c ⟨x, m⟩ e = throw := by
  lift m to ℕ using by omega
  have hX := rep_mk hx.1 hx.2
  have hu : IsUnit (x : ZMod m) ↔ _ := isUnit_iff_gcd
  have hmi : InInt m := by unfold InInt; omega
  have : Fact (1 < m) := ⟨by omega⟩
  obtain ⟨o, ho, hor⟩ := mk'_ok hX.pos hmi (r := 1) (by decide)
  obtain ⟨z, hz, hzr⟩ := mk'_ok hX.pos hmi (r := 0) (by decide)
  simp only [Int.cast_zero, Int.cast_one] at hzr hor
  have hneg : InInt (-e) := by unfold InInt INT_MIN at *; omega
  have key : exp c ⟨x, m⟩ e = if (x : ZMod m) = 0 then throw else (do
      let (inv, c) ← div c o ⟨x, m⟩
      let r ← expLoop m 32 o.residue inv.residue (toU32 (-e))
      ok (⟨r, o.modulus⟩, c)) := by
    unfold exp
    rw [if_pos he, check_modulus_ok hX]
    simp only [ok_bind, ho, hz]
    rw [eq_ok hX hzr]
    by_cases h0 : (x : ZMod m) = 0
    · simp [h0]
    · simp only [h0, decide_false, ok_bind, Bool.false_eq_true, if_false, ineg, chk_ok hneg]
      rw [if_neg (by omega)]
  rw [key]
  split
  · rename_i hg
    have hx0 : (x : ZMod m) ≠ 0 := by
      intro h; have := hu.mpr hg; rw [h] at this; simp at this
    rw [if_neg hx0]
    obtain ⟨⟨q, c'⟩, hq, ⟨w, hw, hz⟩, hc'⟩ := div_ok (by omega) (by omega) hc hor hX (hu.mpr hg)
    simp only at hw hc'
    have he2 : toU32 (-e) = (-e).toNat := by
      unfold toU32 InInt at *; rw [Int.emod_eq_of_lt (by omega) (by omega)]
    obtain ⟨r, hr, r0, r1, hrz⟩ := expLoop_ok hX.pos (by omega) 32 o.residue q.residue
      (toU32 (-e)) (by unfold toU32; omega) hor.2.1 hor.2.2.1 hw.2.1 hw.2.2.1
    refine ⟨q.residue, c', hw.2.1, hw.2.2.1, ?_, hc', ?_⟩
    · have : ((x * q.residue : Int) : ZMod m) = ((1 : Int) : ZMod m) := by
        push_cast; rw [hw.2.2.2, mul_comm, hz]
      rw [ZMod.intCast_eq_intCast_iff] at this
      rw [this]; exact Int.emod_eq_of_lt (by norm_num) (by omega)
    · rw [hq]
      simp only [ok_bind, hr]
      have hrep : Rep m ⟨r, o.modulus⟩ ((q.residue : ZMod m) ^ (-e).toNat) := by
        refine ⟨hor.1, r0, r1, ?_⟩
        show (r : ZMod m) = _
        rw [hrz, hor.2.2.2, one_mul, he2]
      rw [rep_pow hrep]
  · rename_i hg
    split
    · rfl
    · rw [div_throw (by omega) (by omega) hc hor hX (fun h => hg (hu.mp h))]; rfl

example : exp Cache.init ⟨3, 7⟩ (-2) = ok (⟨4, 7⟩, ⟨7, 6⟩) ∧ exp Cache.init ⟨3, 6⟩ (-2) = throw := by
  decide +kernel

/-- The guard meant for the smallest int negates it first: undefined for every non-zero residue. -/
theorem C14_violated_int_min (c : Cache) (m x : Int) (hm : InInt m) (hx : 0 < x ∧ x < m) :
    exp c ⟨x, m⟩ INT_MIN = ub := by
  lift m to ℕ using by omega
  have hX := rep_mk hx.1.le hx.2
  obtain ⟨o, ho, hor⟩ := mk'_ok hX.pos hm (r := 1) (by decide)
  obtain ⟨z, hz, hzr⟩ := mk'_ok hX.pos hm (r := 0) (by decide)
  have h0 : ¬ ((x : ZMod m) = 0) := by
    intro h
    rw [ZMod.intCast_zmod_eq_zero_iff_dvd] at h
    have := Int.eq_zero_of_dvd_of_nonneg_of_lt hx.1.le hx.2 h
    omega
  have hub : ineg INT_MIN = ub := by decide
  unfold exp
  rw [if_pos (by decide), check_modulus_ok hX]
  simp only [ok_bind, ho, hz]
  rw [eq_ok hX hzr]
  simp [h0, hub]

example : exp Cache.init ⟨3, 7⟩ INT_MIN = ub := by decide +kernel

/-! ### C15 -/

theorem check_moduli_throw {a b : IntMod} (h : a.modulus ≠ b.modulus ∨ a.modulus = 0 ∨ b.modulus = 0) :
    check_moduli a b = throw := by
  unfold check_moduli check_modulus
  by_cases ha : a.modulus = 0
  · simp [ha]
  · by_cases hb : b.modulus = 0
    · simp [ha, hb]
    · have : a.modulus ≠ b.modulus := by simpa [ha, hb] using h
      simp [ha, hb, this]

/-- Every binary operation throws on operands with different or unspecified moduli, whatever the
residues and whatever the history. -/
theorem C15_mixed_moduli (c : Cache) (a b : IntMod)
    (h : a.modulus ≠ b.modulus ∨ a.modulus = 0 ∨ b.modulus = 0) :
    add a b = throw ∧ sub a b = throw ∧ mul a b = throw ∧ div c a b = throw ∧ mod c a b = throw ∧
      lt a b = throw := by
  have := check_moduli_throw h
  simp [add, sub, mul, div, mod, lt, this]

example : (⟨1, 5⟩ : IntMod).modulus ≠ (⟨1, 7⟩ : IntMod).modulus ∧ IntMod.default.modulus = 0 := by decide

/-- Unary operations and equality throw on an unspecified modulus. -/
theorem C15_unspecified (c : Cache) (e : Int) (a b : IntMod) (h : a.modulus = 0) :
    neg a = throw ∧ recip c a = throw ∧ exp c a e = throw ∧ eq a b = throw ∧ eq b a = throw := by
  have hc : check_modulus a = throw := by simp [check_modulus, h]
  refine ⟨by simp [neg, hc], by simp [recip, hc], ?_, by simp [eq, hc], ?_⟩
  · unfold exp expNonneg; split <;> simp [hc]
  · unfold eq
    by_cases hb : b.modulus = 0
    · simp [check_modulus, hb]
    · have : check_modulus b = ok () := by simp [check_modulus, hb]
      simp [this, hc]

example : IntMod.default.modulus = 0 := rfl

/-! ### C16 -/

/-- Reading a non-negative integer gives the canonical residue.  Missing for the full property: negative
integers, where it is false (`C16_violated`). -/
theorem C16_read_partial (a : IntMod) (k : Int) (hm : 0 < a.modulus) (hk : 0 ≤ k) (hk' : InInt k) :
    readInto a k = mk' k a.modulus ∧ readInto a k = ok ⟨k % a.modulus, a.modulus⟩ := by
  have h := imod_nonneg_ok hk hk'.2 hm
  have h0 := Int.emod_nonneg k hm.ne'
  have h1 : readInto a k = ok ⟨k % a.modulus, a.modulus⟩ := by
    simp [readInto, check_modulus, hm.ne', h]
  refine ⟨?_, h1⟩
  rw [h1]
  unfold mk'
  rw [if_neg (by omega), h]
  simp only [ok_bind]
  rw [if_neg (by omega)]

example : readInto ⟨0, 7⟩ 23 = ok ⟨2, 7⟩ := by decide

/-- For every modulus and every negative integer not divisible by it, the object read is not canonical
and compares unequal to the residue constructed from the same integer. -/
theorem C16_violated (a : IntMod) (k : Int) (hm : 0 < a.modulus) (hm' : InInt a.modulus) (hk : k < 0)
    (hk' : InInt k) (hd : ¬ a.modulus ∣ k) :
    ∃ b c, readInto a k = ok b ∧ mk' k a.modulus = ok c ∧ b.residue < 0 ∧ eq b c = ok false := by
  obtain ⟨m, hmm⟩ : ∃ m : ℕ, a.modulus = m := ⟨a.modulus.toNat, by omega⟩
  rw [hmm] at hm hm' hd ⊢
  have hmk := C12_construct k m hk' hm'
  rw [if_neg (by omega)] at hmk
  have hne : k.tmod m ≠ 0 := fun h => hd (Int.dvd_of_tmod_eq_zero h)
  have hle : k.tmod m ≤ 0 := by
    have := Int.tmod_nonneg (a := -k) m (by omega)
    rw [Int.neg_tmod] at this; omega
  have hlt : k.tmod m < 0 := lt_of_le_of_ne hle hne
  have hdiv : InInt (k.tdiv m) := by
    by_contra hcon
    have : mk' k m = ub := by
      unfold mk' imod; rw [if_neg (by omega), if_neg (by omega), if_neg hcon]; rfl
    rw [this] at hmk; cases hmk
  refine ⟨⟨k.tmod m, m⟩, ⟨k % m, m⟩, ?_, hmk, hlt, ?_⟩
  · unfold readInto check_modulus imod
    simp only [hmm]
    rw [if_neg (by omega), ok_bind, if_neg (by omega), if_pos hdiv]; rfl
  · have h0 := Int.emod_nonneg k hm.ne'
    unfold eq check_modulus
    have hm0 : ¬ ((m : Int) = 0) := by omega
    have hr : k.tmod m ≠ k % m := by omega
    simp only [if_neg hm0, ok_bind, ne_eq, hr, not_false_eq_true, if_true]

example : readInto ⟨0, 7⟩ (-1) = ok ⟨-1, 7⟩ ∧ mk' (-1) 7 = ok ⟨6, 7⟩ := by decide

end IntMod
end Spffl
