/-
Lemmas about the residue-class model: every operation refines the operation of `ZMod m`.
-/
import Verif.Model.IntMod
import Verif.Proof.IntMath
import Mathlib.Data.ZMod.Basic
import Mathlib.Data.ZMod.Units
import Mathlib.FieldTheory.Finite.Basic
import Mathlib.Tactic.Ring
import Mathlib.Tactic.NormNum

namespace Spffl
open Res
namespace IntMod

/-- `a` is the canonical representative modulo `m` of the residue class `z`. -/
def Rep (m : ℕ) (a : IntMod) (z : ZMod m) : Prop :=
  a.modulus = m ∧ 0 ≤ a.residue ∧ a.residue < m ∧ (a.residue : ZMod m) = z

theorem Rep.inj {m : ℕ} {a b : IntMod} {z : ZMod m} (ha : Rep m a z) (hb : Rep m b z) : a = b := by
  obtain ⟨am, a0, a1, az⟩ := ha
  obtain ⟨bm, b0, b1, bz⟩ := hb
  have h : (a.residue : ZMod m) = (b.residue : ZMod m) := by rw [az, bz]
  rw [ZMod.intCast_eq_intCast_iff] at h
  have : a.residue = b.residue := by
    have h2 := h
    unfold Int.ModEq at h2
    rwa [Int.emod_eq_of_lt a0 a1, Int.emod_eq_of_lt b0 b1] at h2
  cases a; cases b; simp_all

theorem Rep.eq_iff {m : ℕ} {a b : IntMod} {z w : ZMod m} (ha : Rep m a z) (hb : Rep m b w) :
    a.residue = b.residue ↔ z = w := by
  constructor
  · intro h; rw [← ha.2.2.2, ← hb.2.2.2, h]
  · intro h; subst h; rw [Rep.inj ha hb]

theorem mk'_ok {m : ℕ} (hm : 0 < m) (hm' : InInt m) {r : Int} (hr : InInt r) :
    (mk' r m).Ok (fun a => Rep m a (r : ZMod m)) := by
  have hmz : (0 : Int) < m := by exact_mod_cast hm
  unfold InInt at hm' hr
  have hdiv : InInt (r.tdiv m) := by
    unfold InInt
    have h1 : (r.tdiv m).natAbs ≤ r.natAbs := by
      rw [Int.natAbs_tdiv]; exact Nat.div_le_self _ _
    by_cases hm1 : (m : Int) = 1
    · rw [hm1, Int.tdiv_one]; exact hr
    · by_cases hrm : r = -2147483648
      · subst hrm
        have h2 : (Int.tdiv (-2147483648) m).natAbs ≤ 2147483648 / 2 := by
          rw [Int.natAbs_tdiv]
          exact Nat.div_le_div_left (by omega) (by norm_num)
        omega
      · omega
  have himod : imod r m = ok (r.tmod m) := by
    simp [imod, hdiv, hm.ne']
  have hlt : |r.tmod m| < m := by
    have := Int.natAbs_tmod r m
    have h3 : r.natAbs % (m : Int).natAbs < (m : Int).natAbs := Nat.mod_lt _ (by omega)
    rw [← this] at h3
    rw [Int.abs_eq_natAbs]; omega
  have hcast : ((r.tmod m : Int) : ZMod m) = (r : ZMod m) := by
    have h4 : r.tmod m = r - m * r.tdiv m := by
      have := Int.mul_tdiv_add_tmod r m; linarith
    rw [h4]; simp
  rw [abs_lt] at hlt
  unfold mk'
  rw [if_neg (by omega), himod]
  simp only [ok_bind]
  split
  · rename_i hneg
    have : InInt (r.tmod m + m) := by unfold InInt; omega
    simp only [iadd, chk_ok this, ok_bind, Ok_ok, Rep]
    refine ⟨trivial, by omega, by omega, ?_⟩
    push_cast; rw [hcast]; simp
  · rename_i hneg
    simp only [Ok_ok, Rep]
    exact ⟨trivial, by omega, by omega, hcast⟩

theorem Rep.pos {m : ℕ} {a : IntMod} {z : ZMod m} (h : Rep m a z) : 0 < m := by
  obtain ⟨_, h0, h1, _⟩ := h; omega

theorem exists_rep {m : ℕ} (hm : 0 < m) (z : ZMod m) : ∃ a, Rep m a z := by
  have : NeZero m := ⟨hm.ne'⟩
  refine ⟨⟨z.val, m⟩, rfl, by positivity, ?_, by simp⟩
  have := ZMod.val_lt z
  show ((z.val : ℕ) : Int) < m
  exact_mod_cast this

theorem check_modulus_ok {m : ℕ} {a : IntMod} {z : ZMod m} (h : Rep m a z) :
    check_modulus a = ok () := by
  have := h.pos; unfold check_modulus; rw [if_neg]; rw [h.1]; omega

theorem check_moduli_ok {m : ℕ} {a b : IntMod} {z w : ZMod m} (h : Rep m a z) (h' : Rep m b w) :
    check_moduli a b = ok () := by
  unfold check_moduli; simp [check_modulus_ok h, check_modulus_ok h', h.1, h'.1]

theorem add_ok {m : ℕ} (hm' : m ≤ 1073741824) {a b : IntMod} {z w : ZMod m} (h : Rep m a z)
    (h' : Rep m b w) : (add a b).Ok (fun r => Rep m r (z + w)) := by
  have hm := h.pos
  unfold add
  rw [check_moduli_ok h h', h.1]
  obtain ⟨_, a0, a1, az⟩ := h
  obtain ⟨_, b0, b1, bz⟩ := h'
  have hin : InInt (a.residue + b.residue) := by unfold InInt; omega
  simp only [iadd, chk_ok hin, ok_bind]
  refine (mk'_ok hm (by unfold InInt; omega) hin).mono fun r hr => ?_
  rw [← az, ← bz]; simpa using hr

theorem sub_ok {m : ℕ} (hm' : m ≤ 1073741824) {a b : IntMod} {z w : ZMod m} (h : Rep m a z)
    (h' : Rep m b w) : (sub a b).Ok (fun r => Rep m r (z - w)) := by
  have hm := h.pos
  unfold sub
  rw [check_moduli_ok h h', h.1]
  obtain ⟨_, a0, a1, az⟩ := h
  obtain ⟨_, b0, b1, bz⟩ := h'
  have hin : InInt (m + a.residue) := by unfold InInt; omega
  have hin2 : InInt (m + a.residue - b.residue) := by unfold InInt; omega
  simp only [iadd, isub, chk_ok hin, chk_ok hin2, ok_bind]
  refine (mk'_ok hm (by unfold InInt; omega) hin2).mono fun r hr => ?_
  rw [← az, ← bz]; simpa using hr

theorem neg_ok {m : ℕ} (hm' : InInt m) {a : IntMod} {z : ZMod m} (h : Rep m a z) :
    (neg a).Ok (fun r => Rep m r (-z)) := by
  have hm := h.pos
  unfold neg
  rw [check_modulus_ok h, h.1]
  obtain ⟨_, a0, a1, az⟩ := h
  have hin : InInt (m - a.residue) := by unfold InInt at *; omega
  simp only [isub, chk_ok hin, ok_bind]
  refine (mk'_ok hm hm' hin).mono fun r hr => ?_
  rw [← az]; simpa using hr

theorem mul_bound {m : ℕ} (hm' : m ≤ 46341) {x y : Int} (hx : 0 ≤ x) (hx' : x < m) (hy : 0 ≤ y)
    (hy' : y < m) : InInt (x * y) := by
  have h1 : x ≤ 46340 := by omega
  have h2 : y ≤ 46340 := by omega
  unfold InInt
  constructor
  · nlinarith [mul_nonneg hx hy]
  · nlinarith [mul_le_mul h1 h2 hy (by norm_num : (0:Int) ≤ 46340)]

theorem mul_ok_of {m : ℕ} (hm' : InInt m) {a b : IntMod} {z w : ZMod m} (h : Rep m a z)
    (h' : Rep m b w) (hin : InInt (a.residue * b.residue)) :
    (mul a b).Ok (fun r => Rep m r (z * w)) := by
  have hm := h.pos
  unfold mul
  rw [check_moduli_ok h h', h.1]
  obtain ⟨_, a0, a1, az⟩ := h
  obtain ⟨_, b0, b1, bz⟩ := h'
  simp only [imul, chk_ok hin, ok_bind]
  refine (mk'_ok hm hm' hin).mono fun r hr => ?_
  rw [← az, ← bz]; simpa using hr

theorem mul_ok {m : ℕ} (hm' : m ≤ 46341) {a b : IntMod} {z w : ZMod m} (h : Rep m a z)
    (h' : Rep m b w) : (mul a b).Ok (fun r => Rep m r (z * w)) :=
  mul_ok_of (by unfold InInt; omega) h h' (mul_bound hm' h.2.1 h.2.2.1 h'.2.1 h'.2.2.1)

theorem eq_ok {m : ℕ} {a b : IntMod} {z w : ZMod m} (h : Rep m a z) (h' : Rep m b w) :
    eq a b = ok (decide (z = w)) := by
  unfold eq
  simp only [check_modulus_ok h, check_modulus_ok h', ok_bind, h.1, h'.1, ne_eq, h.eq_iff h']
  by_cases e : z = w <;> simp [e]

theorem red_ok {m : ℕ} {x y : Int} (hm : 0 < m) (hin : InInt (x * y)) (hx : 0 ≤ x) (hy : 0 ≤ y) :
    (imul x y >>= fun p => imod p m).Ok
      (fun r => 0 ≤ r ∧ r < m ∧ (r : ZMod m) = (x : ZMod m) * (y : ZMod m)) := by
  have h0 : 0 ≤ x * y := mul_nonneg hx hy
  simp only [imul, chk_ok hin, ok_bind]
  rw [imod_nonneg_ok h0 hin.2 (by omega)]
  simp only [Ok_ok]
  refine ⟨Int.emod_nonneg _ (by omega), Int.emod_lt_of_pos _ (by omega), ?_⟩
  have : (((x * y) % (m : Int) : Int) : ZMod m) = ((x * y : Int) : ZMod m) := by
    rw [ZMod.intCast_eq_intCast_iff]; exact Int.mod_modEq _ _
  rw [this]; push_cast; rfl

theorem expLoop_ok {m : ℕ} (hm : 0 < m) (hm' : m ≤ 46341) : ∀ (k : Nat) (rv xp : Int) (e : Nat),
    e < 2 ^ k → 0 ≤ rv → rv < m → 0 ≤ xp → xp < m →
    (expLoop m k rv xp e).Ok
      (fun r => 0 ≤ r ∧ r < m ∧ (r : ZMod m) = (rv : ZMod m) * (xp : ZMod m) ^ e) := by
  intro k
  induction k with
  | zero =>
    intro rv xp e he r0 r1 x0 x1
    have : e = 0 := by simpa using he
    subst this; simp [expLoop, r0, r1]
  | succ k ih =>
    intro rv xp e he r0 r1 x0 x1
    unfold expLoop
    split
    · rename_i h; subst h; simp [r0, r1]
    · rename_i hne
      have hstep : (expLoop.expMul m rv xp e).Ok (fun r => 0 ≤ r ∧ r < m ∧
          (r : ZMod m) = (rv : ZMod m) * (xp : ZMod m) ^ (e % 2)) := by
        unfold expLoop.expMul
        split
        · rename_i h1; rw [h1, pow_one]
          exact red_ok hm (mul_bound hm' r0 r1 x0 x1) r0 x0
        · have : e % 2 = 0 := by omega
          simp [this, r0, r1]
      refine hstep.bind fun rv' ⟨s0, s1, hs⟩ => ?_
      have hsq := red_ok hm (mul_bound hm' x0 x1 x0 x1) x0 x0
      obtain ⟨xp', hxp', t0, t1, ht⟩ := hsq
      rw [← bind_assoc, hxp', ok_bind]
      refine (ih rv' xp' (e / 2) (by omega) s0 s1 t0 t1).mono fun r ⟨u0, u1, hu⟩ => ⟨u0, u1, ?_⟩
      rw [hu, hs, ht, ← pow_two, ← pow_mul, mul_assoc, ← pow_add, Nat.mod_add_div]

theorem expNonneg_ok {m : ℕ} (hm' : m ≤ 46341) {a : IntMod} {z : ZMod m} (h : Rep m a z) {e : Int}
    (he : 0 ≤ e) (he' : InInt e) (hz : e ≠ 0 ∨ z ≠ 0) :
    (expNonneg a e).Ok (fun r => Rep m r (z ^ e.toNat)) := by
  have hm := h.pos
  have hmi : InInt m := by unfold InInt; omega
  unfold expNonneg
  rw [check_modulus_ok h, h.1]
  simp only [ok_bind]
  refine (mk'_ok hm hmi (r := 0) (by decide)).bind fun zero hzero => ?_
  refine (mk'_ok hm hmi (r := 1) (by decide)).bind fun one hone => ?_
  simp only [Int.cast_zero, Int.cast_one] at hzero hone
  split
  · rename_i e0
    subst e0
    rw [eq_ok h hzero]
    have : z ≠ 0 := by simpa using hz
    simp [this, hone]
  · rename_i e0
    have hu : toU32 e = e.toNat := by
      unfold toU32 InInt at *; rw [Int.emod_eq_of_lt he (by omega)]
    refine (expLoop_ok hm hm' 32 one.residue a.residue (toU32 e) (by unfold toU32; omega)
      hone.2.1 hone.2.2.1 h.2.1 h.2.2.1).bind fun r ⟨r0, r1, hr⟩ => ?_
    simp only [Ok_ok]
    refine ⟨hone.1, r0, r1, ?_⟩
    show (r : ZMod m) = _
    rw [hr, hone.2.2.2, h.2.2.2, one_mul, hu]

/-- The invariant of the static cache: it holds a modulus and the value `int_totient` returns for it. -/
def CacheOk (c : Cache) : Prop := InInt c.mlast ∧ int_totient c.mlast = ok c.phi

theorem cacheOk_init : CacheOk Cache.init := by constructor <;> decide

theorem refill_ok {c : Cache} (hc : CacheOk c) {m : ℕ} (hm : 2 ≤ m) (hm' : InInt m) :
    refill c m = ok ⟨m, Nat.totient m⟩ ∧ CacheOk ⟨m, Nat.totient m⟩ := by
  have ht : int_totient m = ok ((Nat.totient m : ℕ) : Int) := by
    have := int_totient_ok (n := m) (by exact_mod_cast hm) hm'
    simpa using this
  refine ⟨?_, hm', ht⟩
  unfold refill
  split
  · rw [ht]; rfl
  · rename_i h
    have hcm : c.mlast = m := by simpa using Eq.symm (not_not.mp h)
    have := hc.2
    rw [hcm, ht] at this
    cases c; simp_all

/-- What `recip` must return for the residue class `z`. -/
def RecipSpec (m : ℕ) (z : ZMod m) : Option IntMod → Prop
  | none => ¬ IsUnit z
  | some b => ∃ w, Rep m b w ∧ z * w = 1

theorem recip_ok {m : ℕ} (hm2 : 2 ≤ m) (hm' : m ≤ 46341) {c : Cache} (hc : CacheOk c) {a : IntMod}
    {z : ZMod m} (h : Rep m a z) :
    (recip c a).Ok (fun r => RecipSpec m z r.1 ∧ CacheOk r.2) := by
  have hm := h.pos
  have hmi : InInt m := by unfold InInt; omega
  have : Fact (1 < m) := ⟨hm2⟩
  unfold recip
  rw [check_modulus_ok h, h.1]
  simp only [ok_bind]
  split
  · rename_i h2
    have h2 : m = 2 := by exact_mod_cast h2
    subst h2
    split
    · rename_i h0
      have hz : z = 0 := by rw [← h.2.2.2, h0]; simp
      simp [RecipSpec, hz, hc]
    · rename_i h0
      have h1 : a.residue = 1 := by have := h.2.1; have := h.2.2.1; omega
      have hz : z = 1 := by rw [← h.2.2.2, h1]; simp
      simp only [Ok_ok, RecipSpec]
      refine ⟨⟨z, h, ?_⟩, hc⟩
      rw [hz]; rfl
  · rename_i hne2
    have hne2 : m ≠ 2 := by exact_mod_cast hne2
    obtain ⟨hr, hc'⟩ := refill_ok hc hm2 hmi
    rw [hr]
    have hpos : 0 < Nat.totient m := Nat.totient_pos.mpr hm
    have hle : Nat.totient m ≤ m := Nat.totient_le m
    have heven : Even (Nat.totient m) := Nat.totient_even (by omega)
    have h2le : 2 ≤ Nat.totient m := by obtain ⟨k, hk⟩ := heven; omega
    have hin : InInt ((Nat.totient m : ℕ) - 1) := by unfold InInt; omega
    simp only [ok_bind, isub, chk_ok hin]
    rw [if_neg (by omega)]
    refine (expNonneg_ok hm' h (by omega) hin (Or.inl (by omega))).bind fun rv hrv => ?_
    have hexp : ((Nat.totient m : ℕ) - 1 : Int).toNat = Nat.totient m - 1 := by omega
    rw [hexp] at hrv
    have hred := red_ok hm (mul_bound hm' h.2.1 h.2.2.1 hrv.2.1 hrv.2.2.1) h.2.1 hrv.2.1
    obtain ⟨ck, hck, c0, c1, hcz⟩ := hred
    rw [← bind_assoc, hck, ok_bind]
    have hzz : (ck : ZMod m) = z ^ Nat.totient m := by
      rw [hcz, h.2.2.2, hrv.2.2.2, ← pow_succ', Nat.sub_add_cancel hpos]
    have hck1 : ck = 1 ↔ (ck : ZMod m) = 1 := by
      constructor
      · rintro rfl; simp
      · intro h1
        have h1' : (ck : ZMod m) = ((1 : Int) : ZMod m) := by simpa using h1
        rw [ZMod.intCast_eq_intCast_iff] at h1'
        unfold Int.ModEq at h1'
        rwa [Int.emod_eq_of_lt c0 c1, Int.emod_eq_of_lt (by norm_num) (by omega)] at h1'
    split
    · rename_i hn
      simp only [Ok_ok, RecipSpec]
      refine ⟨fun hu => hn (hck1.mpr ?_), hc'⟩
      obtain ⟨u, rfl⟩ := hu
      rw [hzz, ← Units.val_pow_eq_pow_val, ZMod.pow_totient]; simp
    · rename_i hn
      have hn : ck = 1 := not_not.mp hn
      simp only [Ok_ok, RecipSpec]
      refine ⟨⟨_, hrv, ?_⟩, hc'⟩
      rw [← pow_succ', Nat.sub_add_cancel hpos, ← hzz]; exact hck1.mp hn

theorem div_ok {m : ℕ} (hm2 : 2 ≤ m) (hm' : m ≤ 46341) {c : Cache} (hc : CacheOk c) {a b : IntMod}
    {z w : ZMod m} (h : Rep m a z) (h' : Rep m b w) (hu : IsUnit w) :
    (div c a b).Ok (fun r => (∃ q, Rep m r.1 q ∧ q * w = z) ∧ CacheOk r.2) := by
  unfold div
  rw [check_moduli_ok h h']
  simp only [ok_bind]
  refine (recip_ok hm2 hm' hc h').bind fun r hr => ?_
  obtain ⟨bi, c'⟩ := r
  obtain ⟨hs, hc'⟩ := hr
  cases bi with
  | none => exact absurd hu hs
  | some bi =>
    obtain ⟨v, hv, hwv⟩ := hs
    refine (mul_ok hm' h hv).bind fun q hq => ?_
    simp only [Ok_ok]
    exact ⟨⟨_, hq, by rw [mul_assoc, mul_comm v, hwv, mul_one]⟩, hc'⟩

theorem div_throw {m : ℕ} (hm2 : 2 ≤ m) (hm' : m ≤ 46341) {c : Cache} (hc : CacheOk c)
    {a b : IntMod} {z w : ZMod m} (h : Rep m a z) (h' : Rep m b w) (hu : ¬ IsUnit w) :
    div c a b = throw := by
  unfold div
  rw [check_moduli_ok h h']
  simp only [ok_bind]
  obtain ⟨⟨bi, c'⟩, he, hs, hc'⟩ := recip_ok hm2 hm' hc h'
  rw [he, ok_bind]
  cases bi with
  | none => rfl
  | some bi =>
    obtain ⟨v, hv, hwv⟩ := hs
    exact absurd (IsUnit.of_mul_eq_one _ hwv) hu

theorem mod_ok {m : ℕ} (hm2 : 2 ≤ m) (hm' : m ≤ 46341) {c : Cache} (hc : CacheOk c) {a b : IntMod}
    {z w : ZMod m} (h : Rep m a z) (h' : Rep m b w) (hu : IsUnit w) :
    (mod c a b).Ok (fun r => Rep m r.1 0 ∧ CacheOk r.2) := by
  unfold mod
  rw [check_moduli_ok h h']
  simp only [ok_bind]
  refine (recip_ok hm2 hm' hc h').bind fun r hr => ?_
  obtain ⟨bi, c'⟩ := r
  obtain ⟨hs, hc'⟩ := hr
  cases bi with
  | none => exact absurd hu hs
  | some bi =>
    refine (sub_ok (by omega) h h).bind fun q hq => ?_
    simp only [Ok_ok]
    exact ⟨by simpa using hq, hc'⟩

end IntMod
end Spffl
