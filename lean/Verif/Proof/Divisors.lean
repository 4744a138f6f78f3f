/-
Divisor enumeration over `int`.
-/
import Verif.Proof.IntFactor
import Mathlib.Algebra.Order.BigOperators.GroupWithZero.List

namespace Spffl
open Res
namespace FacInfo

abbrev repI (a x : ℤ) : Prop := a = x ∧ InInt x

theorem DInt_nat {x : ℕ} (h0 : 0 < x) (h : x ≤ 2147483647) : DInt (x : ℤ) := by
  refine ⟨by exact_mod_cast h0.ne', ?_⟩
  rw [abs_of_nonneg (by positivity)]; exact_mod_cast h

theorem IsFac.pos {N : ℕ} {l : List (ℕ × ℕ)} (h : IsFac N l) : 0 < N := by
  rw [← h.prod]
  unfold pprod
  refine List.prod_pos ?_
  intro a ha
  obtain ⟨q, hq, rfl⟩ := List.mem_map.mp ha
  have := (h.prime q hq).1.pos
  positivity

theorem IsFac.tail {N : ℕ} {q : ℕ × ℕ} {l : List (ℕ × ℕ)} (h : IsFac N (q :: l)) :
    IsFac (pprod l) l :=
  ⟨rfl, fun r hr => h.prime r (by simp [hr]), by
    have := h.sorted; rw [List.map_cons, List.pairwise_cons] at this; exact this.2⟩

/-- Number of divisors. -/
def ndiv (l : List (ℕ × ℕ)) : ℕ := (l.map fun q => q.2 + 1).prod

theorem ndiv_pos (l : List (ℕ × ℕ)) : 0 < ndiv l := by
  unfold ndiv
  refine List.prod_pos ?_
  intro a ha
  obtain ⟨q, hq, rfl⟩ := List.mem_map.mp ha
  omega

theorem ndiv_le {N : ℕ} : ∀ {l : List (ℕ × ℕ)}, IsFac N l → ndiv l ≤ N
  | [], h => by rw [← h.prod]; simp [ndiv, pprod]
  | q :: l, h => by
    have hq := (h.prime q (by simp)).1.two_le
    have ih := ndiv_le h.tail
    rw [← h.prod]
    simp only [ndiv, pprod, List.map_cons, List.prod_cons] at ih ⊢
    refine Nat.mul_le_mul ?_ ih
    calc q.2 + 1 ≤ 2 ^ q.2 := Nat.lt_two_pow_self
      _ ≤ q.1 ^ q.2 := Nat.pow_le_pow_left hq _

theorem num_loop : ∀ (l : List (ℕ × ℕ)) (rv : ℕ), rv * ndiv l ≤ 2147483647 →
    (∀ q ∈ l, q.2 < 2147483647) → 
    (stored l).foldlM (fun (rv : Int) (p : Int × Int) => do let c ← iadd p.2 1; imul rv c) (rv : Int)
      = ok ((rv * ndiv l : ℕ) : Int)
  | [], rv, _, _ => by simp [stored, ndiv]
  | q :: l, rv, h, hc => by
    have hq := hc q (by simp)
    have hin : InInt ((q.2 : Int) + 1) := by unfold InInt; omega
    have hnd : ndiv (q :: l) = (q.2 + 1) * ndiv l := by simp [ndiv]
    rw [hnd, ← mul_assoc] at h ⊢
    have h2 : rv * (q.2 + 1) ≤ 2147483647 := le_trans (Nat.le_mul_of_pos_right _ (ndiv_pos l)) h
    have hin2 : InInt ((rv : Int) * ((q.2 : Int) + 1)) := by
      have h3 : ((rv * (q.2 + 1) : ℕ) : Int) ≤ 2147483647 := by exact_mod_cast h2
      push_cast at h3
      have h4 : (0:Int) ≤ (rv : Int) * ((q.2 : Int) + 1) := by positivity
      unfold InInt; omega
    simp only [stored, List.map_cons, List.foldlM_cons, iadd, imul, chk_ok hin, chk_ok hin2, ok_bind]
    have := num_loop l (rv * (q.2 + 1)) h (fun q hq => hc q (by simp [hq]))
    simp only [stored, iadd, imul] at this
    push_cast at this
    rw [this]; push_cast; rfl

theorem IsFac.mult_lt {N : ℕ} {l : List (ℕ × ℕ)} (h : IsFac N l) (hN : N ≤ 2147483647) :
    ∀ q ∈ l, q.2 < 2147483647 := by
  intro q hq
  have h1 : q.1 ^ q.2 ∣ N := by
    rw [← h.prod]
    exact List.dvd_prod (List.mem_map.mpr ⟨q, hq, rfl⟩)
  have h2 := Nat.le_of_dvd h.pos h1
  have h3 : q.2 < 2 ^ q.2 := Nat.lt_two_pow_self
  have h4 : 2 ^ q.2 ≤ q.1 ^ q.2 := Nat.pow_le_pow_left (h.prime q hq).1.two_le _
  omega

theorem get_num_divisors_ok {N : ℕ} {l : List (ℕ × ℕ)} (h : IsFac N l) (hN : N ≤ 2147483647)
    (u : Option Int) (hne : l ≠ [] ∨ u.isSome) :
    get_num_divisors ⟨stored l, u⟩ = ok ((ndiv l : ℕ) : Int) := by
  unfold get_num_divisors
  rw [if_neg]
  · have := num_loop l 1 (by have := ndiv_le h; omega) (h.mult_lt hN)
    simpa using this
  · rintro ⟨h1, h2⟩
    simp only [stored, List.length_map, List.length_eq_zero_iff] at h1
    rcases hne with h3 | h3
    · exact h3 h1
    · cases u <;> simp at h2 h3

/-- The `k`-th divisor in mixed radix. -/
def kthA : List (ℕ × ℕ) → ℕ → ℕ
  | [], _ => 1
  | q :: l, k => q.1 ^ (k % (q.2 + 1)) * kthA l (k / (q.2 + 1))

theorem kthA_dvd : ∀ (l : List (ℕ × ℕ)) (k : ℕ), kthA l k ∣ pprod l
  | [], _ => by simp [kthA]
  | q :: l, k => by
    simp only [kthA, pprod, List.map_cons, List.prod_cons]
    refine mul_dvd_mul (pow_dvd_pow _ ?_) (kthA_dvd l _)
    have := Nat.mod_lt k (show 0 < q.2 + 1 by omega); omega

theorem not_dvd_of_lt {p : ℕ} (hp : p.Prime) : ∀ {l : List (ℕ × ℕ)}, (∀ q ∈ l, q.1.Prime ∧ p < q.1) →
    ¬ p ∣ pprod l
  | [], _ => by simp [pprod, hp.one_lt.ne']
  | q :: l, h => by
    have hq := h q (by simp)
    simp only [pprod, List.map_cons, List.prod_cons]
    intro hd
    rcases (Nat.Prime.dvd_mul hp).mp hd with hd | hd
    · have := (Nat.prime_dvd_prime_iff_eq hp hq.1).mp (hp.dvd_of_dvd_pow hd)
      omega
    · exact not_dvd_of_lt hp (fun r hr => h r (by simp [hr])) hd

theorem IsFac.head {N : ℕ} {q : ℕ × ℕ} {l : List (ℕ × ℕ)} (h : IsFac N (q :: l)) :
    q.1.Prime ∧ ¬ q.1 ∣ pprod l := by
  have hp := (h.prime q (by simp)).1
  have hs := h.sorted
  rw [List.map_cons, List.pairwise_cons] at hs
  exact ⟨hp, not_dvd_of_lt hp fun r hr => ⟨(h.prime r (by simp [hr])).1,
    hs.1 _ (List.mem_map.mpr ⟨r, hr, rfl⟩)⟩⟩

theorem kthA_surj {N : ℕ} : ∀ {l : List (ℕ × ℕ)}, IsFac N l → ∀ d, d ∣ pprod l →
    ∃ k, k < ndiv l ∧ kthA l k = d
  | [], _, d, hd => ⟨0, by simp [ndiv], by simp [pprod] at hd; simp [kthA, hd]⟩
  | q :: l, h, d, hd => by
    simp only [pprod, List.map_cons, List.prod_cons] at hd
    obtain ⟨a, b, ha, hb, rfl⟩ := (Nat.dvd_mul).mp hd
    obtain ⟨i, hi, rfl⟩ := (Nat.dvd_prime_pow h.head.1).mp ha
    obtain ⟨k, hk, rfl⟩ := kthA_surj h.tail b hb
    refine ⟨i + (q.2 + 1) * k, ?_, ?_⟩
    · simp only [ndiv, List.map_cons, List.prod_cons] at hk ⊢
      calc i + (q.2 + 1) * k < (q.2 + 1) + (q.2 + 1) * k := by omega
        _ = (q.2 + 1) * (k + 1) := by ring
        _ ≤ _ := Nat.mul_le_mul_left _ hk
    · have h1 : (i + (q.2 + 1) * k) % (q.2 + 1) = i := by
        rw [Nat.add_mul_mod_self_left, Nat.mod_eq_of_lt (by omega)]
      have h2 : (i + (q.2 + 1) * k) / (q.2 + 1) = k := by
        rw [Nat.add_mul_div_left _ _ (by omega), Nat.div_eq_of_lt (by omega), zero_add]
      simp only [kthA, h1, h2]

theorem pow_mul_inj {p a b i j : ℕ} (hp : p.Prime) (ha : ¬ p ∣ a) (hb : ¬ p ∣ b)
    (h : p ^ i * a = p ^ j * b) : i = j ∧ a = b := by
  have key : ∀ {i j a b : ℕ}, ¬ p ∣ a → p ^ i * a = p ^ j * b → j ≤ i := by
    intro i j a b ha h
    by_contra hlt
    push Not at hlt
    obtain ⟨c, rfl⟩ := Nat.exists_eq_add_of_lt hlt
    rw [show i + c + 1 = i + (c + 1) by ring, pow_add, mul_assoc] at h
    have := Nat.eq_of_mul_eq_mul_left (by have := hp.pos; positivity) h
    apply ha; rw [this, pow_succ]; exact ⟨p ^ c * b, by ring⟩
  have hij : i = j := le_antisymm (key hb h.symm) (key ha h)
  subst hij
  exact ⟨rfl, Nat.eq_of_mul_eq_mul_left (by have := hp.pos; positivity) h⟩

theorem kthA_inj {N : ℕ} : ∀ {l : List (ℕ × ℕ)}, IsFac N l → ∀ k k', k < ndiv l → k' < ndiv l →
    kthA l k = kthA l k' → k = k'
  | [], _, k, k', hk, hk', _ => by simp [ndiv] at hk hk'; omega
  | q :: l, h, k, k', hk, hk', he => by
    simp only [ndiv, List.map_cons, List.prod_cons] at hk hk'
    simp only [kthA] at he
    have hnd : ∀ k, ¬ q.1 ∣ kthA l k := fun k hd => h.head.2 (hd.trans (kthA_dvd l k))
    obtain ⟨h1, h2⟩ := pow_mul_inj h.head.1 (hnd _) (hnd _) he
    have h3 := kthA_inj h.tail _ _ (Nat.div_lt_of_lt_mul hk) (Nat.div_lt_of_lt_mul hk') h2
    rw [← Nat.mod_add_div k (q.2 + 1), ← Nat.mod_add_div k' (q.2 + 1), h1, h3]

/-- The squarings inside `tf_exp` stay in range. -/
def PowOk (l : List (ℕ × ℕ)) : Prop := ∀ q ∈ l, q.1 ^ 2 ^ Nat.size q.2 ≤ 2147483647

theorem kth_loop_ok {N : ℕ} (hN : N ≤ 2147483647) : ∀ (l : List (ℕ × ℕ)) (k rv : ℕ), 0 < rv → rv ∣ N → 0 < N →
    rv * kthA l k ∣ N → (∀ q ∈ l, q.1.Prime ∧ q.2 < 2147483647) → PowOk l → k ≤ 2147483647 →
    kth_loop intOps (stored l) k rv = ok ((rv * kthA l k : ℕ) : Int)
  | [], k, rv, _, _, _, _, _, _, _ => by simp [stored, kth_loop, kthA]
  | q :: l, k, rv, h0, h1, hN0, h2, h3, h4, hk => by
    obtain ⟨hq1, hq2⟩ := h3 q (by simp)
    have hq0 : 0 < q.1 := hq1.pos
    have hin : InInt ((q.2 + 1 : ℕ) : Int) := by unfold InInt; omega
    have hb : ((q.2 : Int) + 1) = ((q.2 + 1 : ℕ) : Int) := by push_cast; rfl
    have hmod : imod (k : Int) ((q.2 + 1 : ℕ) : Int) = ok (((k % (q.2 + 1) : ℕ)) : Int) := by
      rw [imod_nonneg_ok (by omega) (by omega) (by omega)]; push_cast; rfl
    have hdiv : idiv (k : Int) ((q.2 + 1 : ℕ) : Int) = ok (((k / (q.2 + 1) : ℕ)) : Int) := by
      unfold idiv
      rw [if_neg (by omega)]
      have : Int.tdiv (k : Int) ((q.2 + 1 : ℕ) : Int) = ((k / (q.2 + 1) : ℕ) : Int) := rfl
      rw [this, chk_ok]
      have : k / (q.2 + 1) ≤ k := Nat.div_le_self _ _
      generalize k / (q.2 + 1) = m at this
      unfold InInt; omega
    simp only [stored, List.map_cons, kth_loop, iadd, hb, chk_ok hin, ok_bind, hmod, hdiv]
    set e := k % (q.2 + 1) with he
    have hele : e ≤ q.2 := by have := Nat.mod_lt k (show 0 < q.2 + 1 by omega); omega
    have hpow := h4 q (by simp)
    have hfull : q.1 ^ e * kthA l (k / (q.2 + 1)) = kthA (q :: l) k := by simp [kthA, he]
    rw [← hfull, ← mul_assoc] at h2 ⊢
    have hre : rv * q.1 ^ e ∣ N := (Dvd.intro _ rfl).trans h2
    have hre' : q.1 ^ e ≤ N := Nat.le_of_dvd hN0 ((Dvd.intro_left _ rfl).trans hre)
    have hre'' : rv * q.1 ^ e ≤ N := Nat.le_of_dvd hN0 hre
    have hqin : InInt (q.1 : Int) := by
      have h5 : q.1 ^ 1 ≤ q.1 ^ 2 ^ Nat.size q.2 :=
        Nat.pow_le_pow_right hq0 Nat.one_le_two_pow
      rw [pow_one] at h5
      unfold InInt; omega
    have hq1c : ((q.1 : ℕ) : ℤ) ≠ 0 := by exact_mod_cast hq0.ne'
    obtain ⟨y, hy, hyr⟩ := tf_exp_ok facRef_int (a := (q.1 : Int)) (x := (q.1 : Int)) ⟨rfl, hqin⟩
      hq1c (e := e) (by unfold INT_MAX; omega)
      (by
        have := DInt_nat (x := q.1 ^ e) (by positivity) (by omega)
        push_cast at this; exact this)
      (by
        have hsz : q.1 ^ 2 ^ Nat.size e ≤ q.1 ^ 2 ^ Nat.size q.2 :=
          Nat.pow_le_pow_right hq0 (Nat.pow_le_pow_right (by norm_num) (Nat.size_le_size hele))
        have := DInt_nat (x := q.1 ^ 2 ^ Nat.size e) (by positivity) (by omega)
        push_cast at this; exact this)
    rw [hy, ok_bind]
    have hmul : intOps.mul (rv : Int) y = ok ((rv * q.1 ^ e : ℕ) : Int) := by
      have hcast : (rv : Int) * y = ((rv * q.1 ^ e : ℕ) : Int) := by rw [hyr.1]; push_cast; rfl
      show imul _ _ = _
      unfold imul
      rw [hcast, chk_ok]
      unfold InInt; omega
    rw [hmul, ok_bind]
    exact kth_loop_ok hN l (k / (q.2 + 1)) (rv * q.1 ^ e) (by positivity) hre hN0 h2
      (fun r hr => h3 r (by simp [hr])) (fun r hr => h4 r (by simp [hr]))
      (le_trans (Nat.div_le_self _ _) hk)

theorem get_kth_divisor_ok {N : ℕ} (hN : N ≤ 2147483647) {l : List (ℕ × ℕ)} (h : IsFac N l)
    (hp : PowOk l) (u : Option Int) (hne : l ≠ [] ∨ u.isSome) {k : ℕ} (hk : k ≤ 2147483647) :
    get_kth_divisor intOps ⟨stored l, u⟩ k 1 = ok ((kthA l k : ℕ) : Int) := by
  unfold get_kth_divisor
  cases l with
  | nil =>
    have : u.isSome := by simpa using hne
    simp [stored, this, kthA]
  | cons q l =>
    rw [if_neg (by simp [stored])]
    have := kth_loop_ok hN (q :: l) k 1 (by norm_num) (one_dvd _) h.pos
      (by rw [one_mul]; have := kthA_dvd (q :: l) k; rwa [h.prod] at this)
      (fun r hr => ⟨(h.prime r hr).1, h.mult_lt hN r hr⟩) hp hk
    simpa using this

theorem get_all_divisors_ok {N : ℕ} (hN : N ≤ 2147483647) {l : List (ℕ × ℕ)} (h : IsFac N l)
    (hp : PowOk l) (u : Option Int) (hne : l ≠ [] ∨ u.isSome) :
    ∃ L, get_all_divisors intOps ⟨stored l, u⟩ 1 = ok L ∧ L.Pairwise (· < ·) ∧
      ∀ d : Int, d ∈ L ↔ 0 < d ∧ d ∣ N := by
  unfold get_all_divisors
  rw [get_num_divisors_ok h hN u hne, ok_bind]
  have hpos := ndiv_pos l
  rw [if_neg (by omega)]
  have hle := ndiv_le h
  have hmap : ((List.range (((ndiv l : ℕ) : Int)).toNat).mapM
      (fun (k : Nat) => get_kth_divisor intOps ⟨stored l, u⟩ k 1)) =
      ok ((List.range (ndiv l)).map fun k => ((kthA l k : ℕ) : Int)) := by
    rw [Int.toNat_natCast]
    obtain ⟨xs, hxs, hf⟩ := mapM_ok (l := List.range (ndiv l))
      (f := fun (k : Nat) => get_kth_divisor intOps ⟨stored l, u⟩ k 1)
      (P := fun k r => r = ((kthA l k : ℕ) : Int)) (by
        intro k hk
        have hk := List.mem_range.mp hk
        rw [get_kth_divisor_ok hN h hp u hne (by omega)]; simp)
    rw [hxs]
    congr 1
    generalize List.range (ndiv l) = ks at hf
    clear hxs
    induction hf with
    | nil => rfl
    | cons h1 _ ih => rw [List.map_cons, ← ih, h1]
  rw [hmap, ok_bind]
  have hdle : ∀ k, kthA l k ≤ N := fun k =>
    Nat.le_of_dvd h.pos (by have := kthA_dvd l k; rwa [h.prod] at this)
  obtain ⟨L, hL, xs', hf, hs, hperm⟩ := sortList_ok facRef_int
    ((List.range (ndiv l)).map fun k => ((kthA l k : ℕ) : Int))
    ((List.range (ndiv l)).map fun k => ((kthA l k : ℕ) : Int)) (by
      rw [List.forall₂_same]
      intro x hx
      obtain ⟨k, _, rfl⟩ := List.mem_map.mp hx
      have := hdle k
      exact ⟨rfl, by unfold InInt; omega⟩)
  have hLx : L = xs' := by
    clear hL hs hperm
    induction hf with
    | nil => rfl
    | cons h1 _ ih => rw [ih, h1.1]
  subst hLx
  refine ⟨L, hL, ?_, ?_⟩
  · have hnd : L.Nodup := by
      rw [hperm.nodup_iff]
      refine List.Nodup.map_on ?_ List.nodup_range
      intro x hx y hy he
      exact kthA_inj h x y (List.mem_range.mp hx) (List.mem_range.mp hy) (by exact_mod_cast he)
    exact (hs.and hnd).imp fun ⟨h1, h2⟩ => lt_of_le_of_ne h1 h2
  · intro d
    rw [hperm.mem_iff, List.mem_map]
    constructor
    · rintro ⟨k, hk, rfl⟩
      have hd := kthA_dvd l k
      rw [h.prod] at hd
      exact ⟨by exact_mod_cast Nat.pos_of_dvd_of_pos hd h.pos, by exact_mod_cast hd⟩
    · rintro ⟨h0, hd⟩
      lift d to ℕ using h0.le
      obtain ⟨k, hk, he⟩ := kthA_surj h d (by rw [h.prod]; exact_mod_cast hd)
      exact ⟨k, List.mem_range.mpr hk, by rw [he]⟩

/-- `n / p` for the `k`-th stored prime, with the sign carried by the unit. -/
theorem kth_maximal_ok {n : Int} (hn : n.natAbs ≤ 2147483647) {l : List (ℕ × ℕ)} (h : IsFac n.natAbs l)
    {k : ℕ} (hk : k < l.length) :
    ∃ d : Int, kth_maximal intOps ⟨stored l, if n < 0 then some (-1) else none⟩ 1 k = ok d ∧
      d * (l[k].1 : ℕ) = n := by
  set q := l[k] with hq
  have hmem : q ∈ l := List.getElem_mem hk
  obtain ⟨hqp, hq2⟩ := h.prime q hmem
  have hlen : k < (stored l).length := by simpa [stored] using hk
  have hget : (stored l)[k] = ((q.1 : Int), (q.2 : Int)) := by simp [stored, hq]
  have hlt := h.mult_lt hn q hmem
  have hin : InInt ((q.2 : Int) - 1) := by unfold InInt; omega
  unfold kth_maximal
  simp only [rd_ok hlen, ok_bind, hget, isub, chk_ok hin]
  -- the modified list
  set u : Option Int := if n < 0 then some (-1) else none with hu
  let l2 : List (ℤ × ℕ) := (l.set k (q.1, q.2 - 1)).map fun r => ((r.1 : ℤ), r.2)
  have hDen : Den (fun (a x : ℤ) => a = x ∧ InInt x)
      ⟨(stored l).set k ((q.1 : Int), (q.2 : Int) - 1), u⟩ l2 u := by
    constructor
    · have : (stored l).set k ((q.1 : Int), (q.2 : Int) - 1) = stored (l.set k (q.1, q.2 - 1)) := by
        unfold stored; rw [List.map_set]; congr 1; simp; omega
      show List.Forall₂ _ ((stored l).set k ((q.1 : Int), (q.2 : Int) - 1)) _
      rw [this]
      unfold stored
      rw [List.forall₂_map_left_iff, List.forall₂_map_right_iff, List.forall₂_same]
      intro r hr
      refine ⟨⟨rfl, ?_⟩, rfl⟩
      have hr1 : ∃ r' ∈ l, r'.1 = r.1 := by
        rcases List.mem_or_eq_of_mem_set hr with hr | hr
        · exact ⟨r, hr, rfl⟩
        · exact ⟨q, hmem, by rw [hr]⟩
      obtain ⟨r', hr', he⟩ := hr1
      have : r'.1 ≤ n.natAbs := by
        refine Nat.le_of_dvd h.pos ?_
        rw [← h.prod]
        exact (dvd_pow_self _ (h.prime r' hr').2.ne').trans
          (List.dvd_prod (List.mem_map.mpr ⟨r', hr', rfl⟩))
      unfold InInt; omega
    · show Option.Rel _ u u
      by_cases hneg : n < 0
      · simp only [hu, if_pos hneg]; exact Option.Rel.some ⟨rfl, by decide⟩
      · simp only [hu, if_neg hneg]; exact Option.Rel.none
  have hprod : (toMs l2).prod * q.1 = (n.natAbs : ℤ) := by
    rw [toMs_prod]
    have h1 : (l2.map fun q => q.1 ^ q.2).prod = ((pprod (l.set k (q.1, q.2 - 1)) : ℕ) : ℤ) := by
      simp only [l2, List.map_map, pprod]
      push_cast [Nat.cast_list_prod, List.map_map]
      congr 1
    rw [h1]
    have h2 : pprod (l.set k (q.1, q.2 - 1)) * q.1 = n.natAbs := by
      rw [← h.prod]
      unfold pprod
      rw [List.map_set]
      have hsplit : l.map (fun q => q.1 ^ q.2) =
          (l.map fun q => q.1 ^ q.2).take k ++ [q.1 ^ q.2] ++ (l.map fun q => q.1 ^ q.2).drop (k + 1) := by
        conv_lhs => rw [← List.take_append_drop k (l.map fun q => q.1 ^ q.2)]
        rw [List.drop_eq_getElem_cons (by simpa using hk)]
        simp [hq]
      rw [List.set_eq_take_append_cons_drop, if_pos (by simpa using hk)]
      conv_rhs => rw [hsplit]
      simp only [List.prod_append, List.prod_cons, List.prod_nil]
      have : q.1 ^ q.2 = q.1 ^ (q.2 - 1) * q.1 := by rw [← pow_succ]; congr 1; omega
      rw [this]; ring
    exact_mod_cast h2
  have hval : prodOf (toMs l2) u * q.1 = n := by
    unfold prodOf
    rw [mul_assoc, hprod, hu]
    split
    · simp only [Option.getD_some]; omega
    · simp only [Option.getD_none]; omega
  obtain ⟨d, hd, hdr⟩ := unfactor_ok facRef_int hDen (one := 1) ⟨rfl, by decide⟩ (by
    have hn0 : n ≠ 0 := by have := h.pos; omega
    exact facRef_int.D_dvd (x := prodOf (toMs l2) u) (y := n)
      ⟨hn0, by rw [Int.abs_eq_natAbs]; exact_mod_cast hn⟩ ⟨_, hval.symm⟩)
  refine ⟨d, hd, ?_⟩
  rw [hdr.1]; exact hval

theorem IsFac.mem_iff {N : ℕ} {l : List (ℕ × ℕ)} (h : IsFac N l) (p : ℕ) (hp : p.Prime) :
    p ∣ N ↔ ∃ q ∈ l, q.1 = p := by
  constructor
  · intro hd
    rw [← h.prod] at hd
    unfold pprod at hd
    obtain ⟨a, ha, hd⟩ := (Prime.dvd_prod_iff hp.prime).mp hd
    obtain ⟨q, hq, rfl⟩ := List.mem_map.mp ha
    exact ⟨q, hq, ((Nat.prime_dvd_prime_iff_eq hp (h.prime q hq).1).mp (hp.dvd_of_dvd_pow hd)).symm⟩
  · rintro ⟨q, hq, rfl⟩
    rw [← h.prod]
    exact (dvd_pow_self _ (h.prime q hq).2.ne').trans
      (List.dvd_prod (List.mem_map.mpr ⟨q, hq, rfl⟩))

theorem get_maximal_ok {n : Int} (h2 : 2 ≤ n.natAbs) (hn : n.natAbs ≤ 2147483647) {l : List (ℕ × ℕ)}
    (h : IsFac n.natAbs l) :
    ∃ L, get_maximal_proper_divisors intOps ⟨stored l, if n < 0 then some (-1) else none⟩ 1 =
      ok (some L) ∧ L.Pairwise (· < ·) ∧
      ∀ d : Int, d ∈ L ↔ ∃ p : ℕ, p.Prime ∧ d * p = n := by
  have hl0 : l ≠ [] := by
    rintro rfl
    have := h.prod; simp [pprod] at this; omega
  unfold get_maximal_proper_divisors
  rw [if_neg (by simpa [stored] using hl0)]
  have hlen : (stored l).length = l.length := by simp [stored]
  simp only [hlen]
  obtain ⟨xs, hxs, hf⟩ := mapM_ok (l := List.range l.length)
    (f := kth_maximal intOps ⟨stored l, if n < 0 then some (-1) else none⟩ 1)
    (P := fun k d => ∃ hk : k < l.length, d * (l[k].1 : ℕ) = n ∧ InInt d) (by
      intro k hk
      have hk := List.mem_range.mp hk
      obtain ⟨d, hd, he⟩ := kth_maximal_ok hn h hk
      refine ⟨d, hd, hk, he, ?_⟩
      have hdv : d.natAbs ∣ n.natAbs := Int.natAbs_dvd_natAbs.mpr ⟨_, he.symm⟩
      have := Nat.le_of_dvd (by omega) hdv
      unfold InInt; omega)
  rw [hxs, ok_bind]
  obtain ⟨L, hL, xs', hf', hs, hperm⟩ := sortList_ok facRef_int xs xs (by
    rw [List.forall₂_same]
    intro x hx
    obtain ⟨i, hi, rfl⟩ := List.getElem_of_mem hx
    have hi' : i < (List.range l.length).length := by rw [hf.length_eq]; exact hi
    obtain ⟨_, _, h3⟩ := forall₂_getElem hf i hi' hi
    exact ⟨rfl, h3⟩)
  have hLx : L = xs' := by
    clear hL hs hperm
    induction hf' with
    | nil => rfl
    | cons h1 _ ih => rw [ih, h1.1]
  subst hLx
  rw [hL, ok_bind]
  refine ⟨L, rfl, ?_, ?_⟩
  · have hnd : L.Nodup := by
      rw [hperm.nodup_iff, List.nodup_iff_injective_getElem]
      rintro ⟨i, hi⟩ ⟨j, hj⟩ he
      have hi' : i < (List.range l.length).length := by rw [hf.length_eq]; exact hi
      have hj' : j < (List.range l.length).length := by rw [hf.length_eq]; exact hj
      obtain ⟨a1, a2, _⟩ := forall₂_getElem hf i hi' hi
      obtain ⟨b1, b2, _⟩ := forall₂_getElem hf j hj' hj
      simp only [List.getElem_range] at a1 a2 b1 b2
      simp only at he
      rw [he] at a2
      have hd0 : xs[j] ≠ 0 := by
        intro h0; rw [h0, zero_mul] at b2; omega
      have hpq : l[i].1 = l[j].1 := by
        have := mul_left_cancel₀ hd0 (a2.trans b2.symm)
        exact_mod_cast this
      have hnd : (l.map Prod.fst).Nodup := h.sorted.imp fun h => h.ne
      have hinj := (List.nodup_iff_injective_getElem.mp hnd)
      have := @hinj ⟨i, by simpa using a1⟩ ⟨j, by simpa using b1⟩ (by simpa using hpq)
      simpa using this
    exact (hs.and hnd).imp fun ⟨h1, h2⟩ => lt_of_le_of_ne h1 h2
  · intro d
    rw [hperm.mem_iff]
    constructor
    · intro hd
      obtain ⟨i, hi, rfl⟩ := List.getElem_of_mem hd
      have hi' : i < (List.range l.length).length := by rw [hf.length_eq]; exact hi
      obtain ⟨a1, a2, _⟩ := forall₂_getElem hf i hi' hi
      exact ⟨_, (h.prime _ (List.getElem_mem a1)).1, a2⟩
    · rintro ⟨p, hp, he⟩
      have hpd : p ∣ n.natAbs := by
        have : ((p : ℕ) : Int) ∣ n := ⟨d, by rw [← he]; ring⟩
        exact Int.natCast_dvd.mp this
      obtain ⟨q, hq, rfl⟩ := (h.mem_iff p hp).mp hpd
      obtain ⟨i, hi, rfl⟩ := List.getElem_of_mem hq
      have hi' : i < (List.range l.length).length := by simpa using hi
      have hi2 : i < xs.length := by rw [← hf.length_eq]; exact hi'
      obtain ⟨a1, a2, _⟩ := forall₂_getElem hf i hi' hi2
      simp only [List.getElem_range] at a1 a2
      have : d = xs[i] := mul_right_cancel₀ (b := ((l[i].1 : ℕ) : Int))
        (by exact_mod_cast hp.pos.ne') (he.trans a2.symm)
      rw [this]; exact List.getElem_mem hi2

end FacInfo
end Spffl
