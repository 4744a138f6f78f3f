/-
Orders, generator search and baby-step giant-step logarithms over an abstract commutative monoid.
-/
import Mathlib.GroupTheory.OrderOfElement
import Verif.Model.Units
import Verif.Base.Sat
import Verif.Proof.IntMath
import Verif.Props.FacInfo

namespace Spffl
open Res

/-- `qs` behaves as `qsort` called with the comparator made from `lt`: the output is a rearrangement of the
input, and if the comparator is consistent on the input (it compares some integer key), no element of the
output compares less than an earlier one. -/
structure IsQsort {α : Type} (lt : α → α → Res Bool) (qs : List (α × Nat) → List (α × Nat)) : Prop where
  perm : ∀ l, (qs l).Perm l
  sorted : ∀ l, (∃ key : α → ℕ, ∀ p ∈ l, ∀ q ∈ l, lt p.1 q.1 = ok (decide (key p.1 < key q.1))) →
    (qs l).Pairwise fun p q => lt q.1 p.1 = ok false

namespace Units

theorem exists_qsort {α : Type} (lt : α → α → Res Bool) : ∃ qs, IsQsort lt qs := by
  classical
  refine ⟨fun l => if h : ∃ key : α → ℕ, ∀ p ∈ l, ∀ q ∈ l, lt p.1 q.1 = ok (decide (key p.1 < key q.1)) then
    l.mergeSort (fun p q => decide (h.choose p.1 ≤ h.choose q.1)) else l, fun l => ?_, fun l h => ?_⟩
  · split
    · exact List.mergeSort_perm _ _
    · exact List.Perm.refl _
  · rw [dif_pos h]
    have hc := h.choose_spec
    generalize h.choose = key at hc
    have hs := List.pairwise_mergeSort (le := fun p q : α × Nat => decide (key p.1 ≤ key q.1))
      (fun a b c h1 h2 => by simp only [decide_eq_true_eq] at *; omega)
      (fun a b => by simp only [Bool.or_eq_true, decide_eq_true_eq]; omega) l
    have hm : ∀ p ∈ l.mergeSort (fun p q : α × Nat => decide (key p.1 ≤ key q.1)), p ∈ l :=
      fun p hp => (List.mergeSort_perm _ _).mem_iff.mp hp
    refine hs.imp_of_mem fun {p q} hp hq hpq => ?_
    rw [hc q (hm q hq) p (hm p hp)]
    simp only [decide_eq_true_eq] at hpq
    simp [Nat.not_lt.mpr hpq]

section
variable {α R : Type} [CommMonoid R] {U : UOps α} {rep : α → R → Prop}

/-- The element operations implement the monoid. -/
structure URef (U : UOps α) (rep : α → R → Prop) (key : R → ℕ) : Prop where
  mul : ∀ {a b x y}, rep a x → rep b y → (U.mul a b).Ok fun r => rep r (x * y)
  recip : ∀ {a x}, rep a x → (U.recip a).Ok fun r => match r with
    | none => ¬ IsUnit x
    | some i => ∃ y, rep i y ∧ x * y = 1
  exp : ∀ {a x} {e : ℕ}, rep a x → 1 ≤ e → (e : Int) ≤ INT_MAX → (U.exp a e).Ok fun r => rep r (x ^ e)
  div : ∀ {a x}, rep a x → IsUnit x → (U.div a a).Ok fun r => rep r 1
  eq : ∀ {a b x y}, rep a x → rep b y → (U.eq a b).Ok fun r => (r = true ↔ x = y)
  lt : ∀ {a b x y}, rep a x → rep b y → (U.lt a b).Ok fun r => (r = true ↔ key x < key y)
  key_inj : Function.Injective key

variable {key : R → ℕ} (h : URef U rep key)
include h

theorem URef.unique {a : α} {x y : R} (hx : rep a x) (hy : rep a y) : x = y := by
  obtain ⟨c, hc, h1⟩ := h.eq hx hx
  obtain ⟨c', hc', h2⟩ := h.eq hx hy
  rw [hc] at hc'; cases hc'
  exact h2.mp (h1.mpr rfl)

theorem orderLoop_ok {a one : α} {x : R} (ha : rep a x) (hone : rep one 1) (hx : 0 < orderOf x) :
    ∀ L : List Int, (∀ d ∈ L, 0 < d ∧ d ≤ INT_MAX) → L.Pairwise (· < ·) → (orderOf x : Int) ∈ L →
      orderLoop U a one L = ok (orderOf x : Int) := by
  intro L
  induction L with
  | nil => intro _ _ hm; simp at hm
  | cons d l ih =>
    intro hb hs hm
    unfold orderLoop
    obtain ⟨hd0, hd1⟩ := hb d (by simp)
    obtain ⟨e, rfl⟩ : ∃ e : ℕ, d = e := ⟨d.toNat, by omega⟩
    obtain ⟨ap, hap, hapr⟩ := h.exp ha (e := e) (by omega) hd1
    obtain ⟨b, hbq, hbr⟩ := h.eq hapr hone
    rw [hap, ok_bind, hbq, ok_bind]
    rw [List.pairwise_cons] at hs
    by_cases hp : x ^ e = 1
    · rw [if_pos (hbr.mpr hp)]
      have h1 : orderOf x ≤ e := orderOf_le_of_pow_eq_one (by omega) hp
      rcases List.mem_cons.mp hm with h2 | h2
      · rw [h2]
      · have := hs.1 _ h2; omega
    · rw [if_neg (fun hc => hp (hbr.mp hc))]
      refine ih (fun d hd => hb d (by simp [hd])) hs.2 ?_
      rcases List.mem_cons.mp hm with h2 | h2
      · exfalso; apply hp
        have : e = orderOf x := by omega
        rw [this, pow_orderOf_eq_one]
      · exact h2

/-- the arrays of powers -/
theorem powList_ok {x0 z : α} {x w : R} (hx0 : rep x0 x) (hz : rep z w) {k : ℕ} (hk : 1 ≤ k) :
    (forUp 1 k [(x0, 0)] (powStep U z)).Ok fun l => l.length = k ∧
      ∀ i (hi : i < l.length), l[i].2 = i ∧ rep l[i].1 (x * w ^ i) := by
  refine forUp_ok (fun i (l : List (α × ℕ)) => l.length = i ∧ ∀ j (hj : j < l.length), l[j].2 = j ∧ rep l[j].1 (x * w ^ j)) hk ?_ ?_
  · refine ⟨rfl, fun j hj => ?_⟩
    have : j = 0 := by simpa using hj
    subst this
    simpa using hx0
  · rintro i l h1 h2 ⟨hl, hI⟩
    unfold powStep
    have hlt : i - 1 < l.length := by omega
    rw [rd_ok hlt, ok_bind]
    refine (h.mul (hI _ hlt).2 hz).bind fun y hy => ?_
    rw [Ok_ok]
    refine ⟨by simp [hl], fun j hj => ?_⟩
    rw [List.length_append, List.length_singleton] at hj
    by_cases hjl : j < l.length
    · rw [List.getElem_append_left hjl]; exact hI j hjl
    · have : j = i := by omega
      subst this
      rw [List.getElem_append_right (by omega)]
      simp only [hl, Nat.sub_self, List.getElem_cons_zero, true_and]
      rw [mul_assoc, ← pow_succ, show j - 1 + 1 = j by omega] at hy
      exact hy

/-- what a match of the merge scan means; no assumption on the order -/
theorem scan_sound : ∀ (n : ℕ) (xs ys : List (α × ℕ)), (∀ p ∈ xs, ∃ x, rep p.1 x) → (∀ p ∈ ys, ∃ x, rep p.1 x) →
    xs.length + ys.length < n → (scan U n xs ys).Ok fun r => ∀ q, r = some q →
      ∃ a ∈ xs, ∃ b ∈ ys, a.2 = q.1 ∧ b.2 = q.2 ∧ ∃ z, rep a.1 z ∧ rep b.1 z := by
  intro n
  induction n with
  | zero => intro xs ys _ _ hn; omega
  | succ n ih =>
    intro xs ys hx hy hn
    match xs, ys with
    | [], ys => unfold scan; rw [Ok_ok]; simp
    | x :: xs, [] => unfold scan; rw [Ok_ok]; simp
    | x :: xs, y :: ys =>
      unfold scan
      obtain ⟨u, hu⟩ := hx x (by simp)
      obtain ⟨v, hv⟩ := hy y (by simp)
      refine (h.eq hu hv).bind fun e he => ?_
      by_cases hc : e = true
      · rw [if_pos hc, Ok_ok]
        rintro q hq
        cases hq
        exact ⟨x, by simp, y, by simp, rfl, rfl, u, hu, by rw [he.mp hc]; exact hv⟩
      · rw [if_neg hc]
        refine (h.lt hu hv).bind fun c _ => ?_
        simp only [List.length_cons] at hn
        split
        · refine (ih xs (y :: ys) (fun p hp => hx p (by simp [hp])) hy (by simp; omega)).mono fun r hr q hq => ?_
          obtain ⟨a, ha, r⟩ := hr q hq
          exact ⟨a, by simp [ha], r⟩
        · refine (ih (x :: xs) ys hx (fun p hp => hy p (by simp [hp])) (by simp; omega)).mono fun r hr q hq => ?_
          obtain ⟨a, ha, b, hb, r⟩ := hr q hq
          exact ⟨a, ha, b, by simp [hb], r⟩

/-- two sorted lists with a common value: the scan finds a match -/
theorem scan_complete : ∀ (n : ℕ) (xs ys : List (α × ℕ)), (∀ p ∈ xs, ∃ x, rep p.1 x) → (∀ p ∈ ys, ∃ x, rep p.1 x) →
    xs.Pairwise (fun p q => U.lt q.1 p.1 = ok false) → ys.Pairwise (fun p q => U.lt q.1 p.1 = ok false) →
    xs.length + ys.length < n → ∀ a ∈ xs, ∀ b ∈ ys, ∀ z, rep a.1 z → rep b.1 z →
    (scan U n xs ys).Ok fun r => r.isSome := by
  intro n
  induction n with
  | zero => intro xs ys _ _ _ _ hn; omega
  | succ n ih =>
    intro xs ys hx hy sx sy hn a ha b hb z hza hzb
    match xs, ys with
    | [], ys => simp at ha
    | x :: xs, [] => simp at hb
    | x :: xs, y :: ys =>
      unfold scan
      obtain ⟨u, hu⟩ := hx x (by simp)
      obtain ⟨v, hv⟩ := hy y (by simp)
      have hle : ∀ {p q : α × ℕ} {s t : R}, rep p.1 s → rep q.1 t → U.lt q.1 p.1 = ok false → key s ≤ key t := by
        intro p q s t hs ht hpq
        obtain ⟨c, hc, hc2⟩ := h.lt ht hs
        rw [hpq] at hc
        cases hc
        exact Nat.not_lt.mp fun hh => by simpa using hc2.mpr hh
      rw [List.pairwise_cons] at sx sy
      refine (h.eq hu hv).bind fun e he => ?_
      by_cases hc : e = true
      · rw [if_pos hc, Ok_ok]; rfl
      · rw [if_neg hc]
        refine (h.lt hu hv).bind fun c hcl => ?_
        simp only [List.length_cons] at hn
        by_cases hc2 : c = true
        · rw [if_pos hc2]
          have hlt := hcl.mp hc2
          rcases List.mem_cons.mp ha with rfl | ha
          · exfalso
            have hz1 : key v ≤ key z := by
              rcases List.mem_cons.mp hb with rfl | hb
              · rw [h.unique hv hzb]
              · exact hle hv hzb (sy.1 _ hb)
            rw [h.unique hza hu] at hz1
            omega
          · exact ih xs (y :: ys) (fun p hp => hx p (by simp [hp])) hy sx.2 (List.pairwise_cons.mpr sy)
              (by simp; omega) a ha b hb z hza hzb
        · rw [if_neg hc2]
          have hge : key v ≤ key u := Nat.not_lt.mp fun hh => hc2 (hcl.mpr hh)
          have hne : key u ≠ key v := fun hh => hc (he.mpr (h.key_inj hh))
          rcases List.mem_cons.mp hb with rfl | hb
          · exfalso
            have hz1 : key u ≤ key z := by
              rcases List.mem_cons.mp ha with rfl | ha
              · rw [h.unique hu hza]
              · exact hle hu hza (sx.1 _ ha)
            rw [h.unique hzb hv] at hz1
            omega
          · exact ih (x :: xs) ys hx (fun p hp => hy p (by simp [hp])) (List.pairwise_cons.mpr sx) sy.2
              (by simp; omega) a ha b hb z hza hzb

omit h in
theorem toInt32_small {n : ℕ} (hn : n < 2 ^ 31) : toInt32 n = n := by
  unfold toInt32
  rw [BitVec.toInt_ofNat', Int.bmod_def]
  have : ((n : Int) % ((2 ^ 32 : ℕ) : Int)) = n := Int.emod_eq_of_lt (by omega) (by push_cast; omega)
  push_cast at this ⊢
  rw [this, if_pos (by omega)]

/-- the body of the logarithm after the guard on the base -/
theorem bsgs_unit {qs : List (α × ℕ) → List (α × ℕ)} (hqs : IsQsort U.lt qs) {g a : α} {w x : R}
    (hg : rep g w) (ha : rep a x) (hw : IsUnit w) {k : ℕ} (hk : 1 ≤ k) (hk2 : k * k < 2 ^ 31) :
    (bsgs U qs g a k = throw ∧ (∀ i < k, ∀ j < k, w ^ (i + j * k) ≠ x)) ∨
      ∃ r : ℕ, bsgs U qs g a k = ok (r : Int) ∧ r < k * k ∧ w ^ r = x := by
  unfold bsgs
  rw [if_neg (by omega)]
  obtain ⟨o, ho, hr⟩ := h.recip hg
  rw [ho, ok_bind]
  match o, hr with
  | none, hr => exact absurd hw hr
  | some ginv, hr =>
    obtain ⟨y, hy, hwy⟩ := hr
    obtain ⟨gk, hgk, hgkr⟩ := h.exp hg hk (by unfold INT_MAX; nlinarith)
    obtain ⟨one, hone, honer⟩ := h.div hg hw
    obtain ⟨A, hA, hAl, hAr⟩ := powList_ok h ha hy hk
    obtain ⟨G, hG, hGl, hGr⟩ := powList_ok h honer hgkr hk
    dsimp only
    rw [hgk, ok_bind, hone, ok_bind, hA, ok_bind, hG, ok_bind]
    have pA := hqs.perm A
    have pG := hqs.perm G
    have eA : ∀ p ∈ A, ∃ x, rep p.1 x := fun p hp => by
      obtain ⟨i, hi, rfl⟩ := List.getElem_of_mem hp
      exact ⟨_, (hAr i hi).2⟩
    have eG : ∀ p ∈ G, ∃ x, rep p.1 x := fun p hp => by
      obtain ⟨i, hi, rfl⟩ := List.getElem_of_mem hp
      exact ⟨_, (hGr i hi).2⟩
    have eA' : ∀ p ∈ qs A, ∃ x, rep p.1 x := fun p hp => eA p (pA.mem_iff.mp hp)
    have eG' : ∀ p ∈ qs G, ∃ x, rep p.1 x := fun p hp => eG p (pG.mem_iff.mp hp)
    have hlen : (qs A).length + (qs G).length < 2 * k + 1 := by rw [pA.length_eq, pG.length_eq]; omega
    have hkey : ∀ l : List (α × ℕ), (∀ p ∈ l, ∃ x, rep p.1 x) →
        (qs l).Pairwise fun p q => U.lt q.1 p.1 = ok false := by
      classical
      intro l hl
      refine hqs.sorted l ⟨fun a => if hh : ∃ x, rep a x then key hh.choose else 0, fun p hp q hq => ?_⟩
      beta_reduce
      rw [dif_pos (hl p hp), dif_pos (hl q hq)]
      obtain ⟨c, hc, hcr⟩ := h.lt (hl p hp).choose_spec (hl q hq).choose_spec
      rw [hc]
      congr 1
      rw [← Bool.decide_coe c]
      exact decide_eq_decide.mpr hcr
    obtain ⟨r, hr, hrs⟩ := scan_sound h (2 * k + 1) _ _ eA' eG' hlen
    rw [hr, ok_bind]
    have hyw : ∀ i : ℕ, y ^ i * w ^ i = 1 := fun i => by rw [← mul_pow, mul_comm y w, hwy, one_pow]
    cases r with
    | none =>
      left
      refine ⟨rfl, fun i hi j hj hx => ?_⟩
      have hi' : i < A.length := by omega
      have hj' : j < G.length := by omega
      obtain ⟨r, hr', hrr⟩ := scan_complete h (2 * k + 1) _ _ eA' eG' (hkey A eA) (hkey G eG) hlen
        A[i] (pA.mem_iff.mpr (List.getElem_mem hi')) G[j] (pG.mem_iff.mpr (List.getElem_mem hj')) (w ^ (j * k))
        (by
          have := (hAr i hi').2
          rwa [← hx, pow_add, mul_comm (w ^ i), mul_assoc, mul_comm (w ^ i), hyw, mul_one] at this)
        (by
          have := (hGr j hj').2
          rwa [one_mul, ← pow_mul, mul_comm k j] at this)
      rw [hr] at hr'
      cases hr'
      simp at hrr
    | some q =>
      right
      obtain ⟨a', ha', b', hb', h1, h2, z, hz1, hz2⟩ := hrs q rfl
      obtain ⟨i, hi, rfl⟩ := List.getElem_of_mem (pA.mem_iff.mp ha')
      obtain ⟨j, hj, rfl⟩ := List.getElem_of_mem (pG.mem_iff.mp hb')
      rw [(hAr i hi).1] at h1
      rw [(hGr j hj).1] at h2
      have e1 := h.unique hz1 (hAr i hi).2
      have e2 := h.unique hz2 (hGr j hj).2
      have hlt : i + j * k < k * k := by
        have : j + 1 ≤ k := by omega
        have := Nat.mul_le_mul_right k this
        rw [Nat.add_mul] at this; omega
      refine ⟨i + j * k, ?_, hlt, ?_⟩
      · dsimp only
        rw [← h1, ← h2, toInt32_small (lt_trans hlt hk2), if_neg (by omega)]
      · rw [e1, one_mul, ← pow_mul] at e2
        rw [pow_add, mul_comm j k, ← e2, mul_comm, mul_assoc, hyw, mul_one]

theorem bsgs_nonunit (qs : List (α × ℕ) → List (α × ℕ)) {g : α} (a : α) {w : R} (hg : rep g w) (hw : ¬ IsUnit w)
    {k : ℕ} (hk : 1 ≤ k) : bsgs U qs g a k = throw := by
  unfold bsgs
  rw [if_neg (by omega)]
  obtain ⟨o, ho, hr⟩ := h.recip hg
  rw [ho, ok_bind]
  match o, hr with
  | none, _ => rfl
  | some i, ⟨y, _, hy⟩ => exact absurd (IsUnit.of_mul_eq_one _ hy) hw

/-- full correctness: `k * k` is at least the order of the base -/
theorem bsgs_ok {qs : List (α × ℕ) → List (α × ℕ)} (hqs : IsQsort U.lt qs) {g a : α} {w x : R}
    (hg : rep g w) (ha : rep a x) (hw : IsUnit w) {k : ℕ} (hk : 1 ≤ k) (hk2 : k * k < 2 ^ 31)
    (ho : 0 < orderOf w) (hok : orderOf w ≤ k * k) :
    (bsgs U qs g a k = throw ∧ ¬ ∃ r : ℕ, w ^ r = x) ∨
      ∃ r : ℕ, bsgs U qs g a k = ok (r : Int) ∧ r < k * k ∧ w ^ r = x := by
  rcases bsgs_unit h hqs hg ha hw hk hk2 with ⟨h1, h2⟩ | h1
  · left
    refine ⟨h1, ?_⟩
    rintro ⟨r, hr⟩
    have hlt : r % orderOf w < k * k := lt_of_lt_of_le (Nat.mod_lt _ ho) hok
    refine h2 (r % orderOf w % k) (Nat.mod_lt _ hk) (r % orderOf w / k) (Nat.div_lt_of_lt_mul hlt) ?_
    rw [mul_comm, Nat.mod_add_div, pow_mod_orderOf, hr]
  · exact Or.inr h1

end
/-! ### divisors of the totient, square root -/

theorem phi_divisors_ok {n : ℕ} (h1 : 1 ≤ n) (hn : n ≤ 2147483647)
    (hp : ∀ p : ℕ, p.Prime → p ∣ n → p ^ 2 ^ Nat.size (n.factorization p) ≤ 2147483647) :
    ∃ L, phi_divisors n = ok L ∧ L.Pairwise (· < ·) ∧ ∀ d : Int, d ∈ L ↔ 0 < d ∧ d ∣ (n : Int) :=
  FacInfo.C35_all_divisors_partial n (by omega) (by unfold InInt; omega) (by simpa using hp)

theorem powOk_of_small {n : ℕ} (h1 : 1 ≤ n) (hn : n ≤ 46340) (p : ℕ) (hp : p.Prime) (hd : p ∣ n) :
    p ^ 2 ^ Nat.size (n.factorization p) ≤ 2147483647 := by
  have hc : 1 ≤ n.factorization p := (hp.factorization_pos_of_dvd (by omega) hd)
  generalize hcc : n.factorization p = c at *
  have hs : 2 ^ Nat.size c ≤ 2 * c := by
    have h2 : 1 ≤ Nat.size c := Nat.size_pos.mpr hc
    have h3 : 2 ^ (Nat.size c - 1) ≤ c := Nat.lt_size.mp (by omega)
    calc 2 ^ Nat.size c = 2 * 2 ^ (Nat.size c - 1) := by rw [← pow_succ']; congr 1; omega
      _ ≤ 2 * c := by omega
  have hpc : p ^ c ≤ n := Nat.le_of_dvd h1 (by rw [← hcc]; exact Nat.ordProj_dvd n p)
  calc p ^ 2 ^ Nat.size c ≤ p ^ (2 * c) := Nat.pow_le_pow_right hp.pos hs
    _ = (p ^ c) ^ 2 := by rw [mul_comm, pow_mul]
    _ ≤ 46340 ^ 2 := Nat.pow_le_pow_left (hpc.trans hn) 2
    _ ≤ 2147483647 := by norm_num

theorem sqrt_ceil_ok' {n : ℕ} (h1 : 1 ≤ n) (hn : n ≤ 2 ^ 30) :
    ∃ k : ℕ, int_sqrt_ceil n = ok (k : Int) ∧ 1 ≤ k ∧ n ≤ k * k ∧ k * k < 2 ^ 31 ∧ (k - 1) * (k - 1) < n := by
  obtain ⟨r, hr, h0, h2⟩ := int_sqrt_ok (n := n) (by omega) (by unfold InInt; omega) true
  obtain ⟨k, rfl⟩ : ∃ k : ℕ, r = k := ⟨r.toNat, by omega⟩
  refine ⟨k, hr, ?_⟩
  split at h2
  · next h3 =>
    have h3 : k * k = n := by exact_mod_cast h3
    have hk : 0 < k := Nat.pos_of_ne_zero (by rintro rfl; omega)
    refine ⟨hk, by omega, by omega, ?_⟩
    rw [← h3]
    exact Nat.mul_self_lt_mul_self (by omega)
  · simp only [if_true] at h2
    obtain ⟨h3, h4, h5⟩ := h2
    obtain ⟨j, rfl⟩ : ∃ j, k = j + 1 := ⟨k - 1, by omega⟩
    have h4 : j * j < n := by push_cast at h4; rw [add_sub_cancel_right] at h4; exact_mod_cast h4
    have h5 : n < (j + 1) * (j + 1) := by exact_mod_cast h5
    refine ⟨by omega, by omega, ?_, h4⟩
    have : j < 2 ^ 15 := by
      by_contra hh
      have := Nat.mul_le_mul (Nat.not_lt.mp hh) (Nat.not_lt.mp hh)
      norm_num at this; omega
    calc (j + 1) * (j + 1) ≤ 2 ^ 15 * 2 ^ 15 := Nat.mul_le_mul this this
      _ < 2 ^ 31 := by norm_num

theorem sqrt_ceil_ok {n : ℕ} (h1 : 1 ≤ n) (hn : n ≤ 2 ^ 30) :
    ∃ k : ℕ, int_sqrt_ceil n = ok (k : Int) ∧ 1 ≤ k ∧ n ≤ k * k ∧ k * k < 2 ^ 31 := by
  obtain ⟨k, h1, h2, h3, h4, -⟩ := sqrt_ceil_ok' h1 hn
  exact ⟨k, h1, h2, h3, h4⟩

/-! ### generator search -/
section
variable {α R σ : Type} [CommMonoid R] {rep : α → R → Prop} {srep : σ → ℕ → Prop} {V : Prop}

/-- The search over the keys `n, n+1, ... , Q-1`, all of them units, one of them (`t`) of order `phi`. -/
theorem genLoop_sat {lt : σ → Res Bool} {mk : σ → Res α} {incr : σ → Res σ} {order : α → Res Int} {phi : ℕ} {Q : ℕ}
    {elt : ℕ → R} (hlt : ∀ {s n}, srep s n → (lt s).Ok fun b => (b = true ↔ n < Q))
    (hmk : ∀ {s n}, srep s n → n < Q → (mk s).Ok fun a => rep a (elt n))
    (hincr : ∀ {s n}, srep s n → n + 1 < Q → (incr s).Ok fun s' => srep s' (n + 1))
    (hord : ∀ {a n}, 0 < n → n < Q → rep a (elt n) → (order a).Sat V fun r => r = (orderOf (elt n) : Int))
    {t : ℕ} (ht : t < Q) (hto : orderOf (elt t) = phi) :
    ∀ (k : ℕ) (s : σ) (n : ℕ), srep s n → 0 < n → n ≤ t → t < n + k →
      (genLoop lt mk incr order phi k s).Sat V fun r => ∃ g, r = some g ∧ ∃ c, n ≤ c ∧ c ≤ t ∧ rep g (elt c) ∧
        orderOf (elt c) = phi ∧ ∀ i, n ≤ i → i < c → orderOf (elt i) ≠ phi := by
  intro k
  induction k with
  | zero => intro s n _ _ h1 h2; omega
  | succ k ih =>
    intro s n hs hn h1 h2
    unfold genLoop
    obtain ⟨b, hb, hbr⟩ := hlt hs
    rw [hb, ok_bind, if_pos (hbr.mpr (by omega))]
    obtain ⟨g, hg, hgr⟩ := hmk hs (by omega)
    rw [hg, ok_bind]
    refine (hord hn (by omega) hgr).bind fun o ho => ?_
    subst ho
    by_cases hc : orderOf (elt n) = phi
    · rw [if_pos (by exact_mod_cast hc), Sat_ok]
      exact ⟨g, rfl, n, le_rfl, h1, hgr, hc, fun i h1 h2 => by omega⟩
    · rw [if_neg (by exact_mod_cast hc)]
      have hnt : n ≠ t := by rintro rfl; exact hc hto
      obtain ⟨s', hs', hsr⟩ := hincr hs (by omega)
      rw [hs', ok_bind]
      refine (ih s' (n + 1) hsr (by omega) (by omega) (by omega)).mono fun r hr => ?_
      obtain ⟨g, rfl, c, h3, h4, h5, h6, h7⟩ := hr
      refine ⟨g, rfl, c, by omega, h4, h5, h6, fun i hi1 hi2 => ?_⟩
      rcases Nat.eq_or_lt_of_le hi1 with rfl | hi
      · exact hc
      · exact h7 i hi hi2

end
end Units
end Spffl
