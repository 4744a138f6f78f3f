/-
Proofs about the Möbius function, the number of irreducible polynomials of a degree and the list of them.
-/
import Verif.Model.Chart
import Verif.Proof.IntFactor
import Verif.Proof.F2Irr
import Verif.Proof.F2Text
import Verif.Base.IrredCount

namespace Spffl.Chart
open Res FacInfo Polynomial
open ArithmeticFunction (moebius)

theorem moebius_list {l : List (ℕ × ℕ)} (hp : ∀ q ∈ l, q.1.Prime ∧ 0 < q.2) (hs : (l.map Prod.fst).Pairwise (· < ·)) :
    moebius (pprod l) = if ∀ q ∈ l, q.2 ≤ 1 then (-1) ^ l.length else 0 := by
  induction l with
  | nil => simp [pprod]
  | cons q l ih =>
    rw [List.map_cons, List.pairwise_cons] at hs
    have hq := hp q (by simp)
    have hp' : ∀ r ∈ l, r.1.Prime ∧ 0 < r.2 := fun r hr => hp r (by simp [hr])
    have hc : Nat.Coprime (q.1 ^ q.2) (pprod l) := by
      refine Nat.Coprime.pow_left _ ?_
      unfold pprod
      rw [Nat.coprime_list_prod_right_iff]
      intro x hx
      obtain ⟨r, hr, rfl⟩ := List.mem_map.1 hx
      refine Nat.Coprime.pow_right _ ((Nat.coprime_primes hq.1 (hp' r hr).1).2 ?_)
      have := hs.1 r.1 (List.mem_map.2 ⟨r, hr, rfl⟩)
      omega
    rw [show pprod (q :: l) = q.1 ^ q.2 * pprod l by simp [pprod],
      ArithmeticFunction.isMultiplicative_moebius.map_mul_of_coprime hc, ih hp' hs.2,
      ArithmeticFunction.moebius_apply_prime_pow hq.1 (by omega)]
    by_cases h1 : q.2 = 1
    · rw [if_pos h1]
      by_cases h2 : ∀ r ∈ l, r.2 ≤ 1
      · rw [if_pos h2, if_pos (by simpa [h1] using h2), List.length_cons, pow_succ]; ring
      · rw [if_neg h2, if_neg (by simpa [h1] using h2), mul_zero]
    · rw [if_neg h1, zero_mul, if_neg]
      intro h; have := h q (by simp); omega

theorem moebiusLoop_ok {l : List (ℕ × ℕ)} {u : Option Int} (k i : ℕ) (hk : i + k = l.length) (rv : Int) (hrv : rv = 1 ∨ rv = -1) :
    moebiusLoop ⟨stored l, u⟩ k i rv = ok (if ∀ q ∈ l.drop i, q.2 ≤ 1 then rv * (-1) ^ k else 0) := by
  induction k generalizing i rv with
  | zero => rw [List.drop_of_length_le (by omega)]; simp [moebiusLoop]
  | succ k ih =>
    have hi : i < l.length := by omega
    unfold moebiusLoop get_ith_count
    rw [if_neg (by simp [stored]; omega)]
    have : rd (stored l) ((i : Int).toNat) = ok ((l[i].1 : Int), (l[i].2 : Int)) := by
      rw [Int.toNat_natCast]
      simp [rd, stored, hi]
    simp only [this, ok_bind]
    rw [List.drop_eq_getElem_cons hi]
    by_cases h : l[i].2 ≤ 1
    · rw [if_neg (by omega), imul, chk_ok (by unfold InInt; omega), ok_bind]
      have e := ih (i + 1) (by omega) (rv * -1) (by omega)
      push_cast at e
      rw [e]
      congr 1
      simp only [List.mem_cons, forall_eq_or_imp, h, true_and]
      rw [pow_succ, show rv * ((-1) ^ k * -1) = rv * -1 * (-1) ^ k by ring]
    · rw [if_pos (by omega), if_neg]
      intro h'; exact h (h' l[i] List.mem_cons_self)

theorem calc_moebius_int {n : Int} (h1 : 2 ≤ n.natAbs) (hn : n.natAbs ≤ 2147483647) : calc_moebius n = ok (moebius n.natAbs) := by
  unfold calc_moebius
  obtain ⟨l, hl, hf⟩ := int_factor_ok h1 hn
  rw [hl, ok_bind]
  have := moebiusLoop_ok (l := l) (u := if n < 0 then some (-1) else none) l.length 0 (by simp) 1 (Or.inl rfl)
  simp only [num_distinct, stored, List.length_map] at this ⊢
  rw [show ((0 : ℕ) : Int) = 0 from rfl] at this
  rw [this, List.drop_zero, one_mul, ← moebius_list hf.prime hf.sorted, hf.prod]

theorem calc_moebius_ok {n : ℕ} (h1 : 1 ≤ n) (hn : n ≤ 2147483647) : calc_moebius n = ok (moebius n) := by
  by_cases h : n = 1
  · subst h; decide +kernel
  · exact calc_moebius_int (n := (n : Int)) (by omega) (by omega)

/-- the part of the sum with `d < i` -/
noncomputable def psum (n i : ℕ) : ℤ := ∑ d ∈ n.divisors with d < i, moebius (n / d) * 2 ^ d

theorem psum_succ {n i : ℕ} (hn : 0 < n) : psum n (i + 1) = psum n i + if i ∣ n then moebius (n / i) * 2 ^ i else 0 := by
  unfold psum
  split
  · rename_i h
    rw [show (n.divisors.filter (· < i + 1)) = insert i (n.divisors.filter (· < i)) from ?_, Finset.sum_insert (by simp), add_comm]
    ext d
    simp only [Finset.mem_filter, Nat.mem_divisors, Finset.mem_insert]
    constructor
    · rintro ⟨h1, h2⟩
      by_cases e : d = i
      · exact Or.inl e
      · exact Or.inr ⟨h1, by omega⟩
    · rintro (rfl | ⟨h1, h2⟩)
      · exact ⟨⟨h, hn.ne'⟩, by omega⟩
      · exact ⟨h1, by omega⟩
  · rename_i h
    rw [add_zero]
    congr 1
    ext d
    simp only [Finset.mem_filter, Nat.mem_divisors]
    constructor
    · rintro ⟨h1, h2⟩
      refine ⟨h1, ?_⟩
      have : d ≠ i := by rintro rfl; exact h h1.1
      omega
    · rintro ⟨h1, h2⟩; exact ⟨h1, by omega⟩

theorem psum_bound {n : ℕ} (hn : 0 < n) (i : ℕ) : |psum n i| < 2 ^ i := by
  induction i with
  | zero => simp [psum]
  | succ i ih =>
    rw [psum_succ hn, pow_succ]
    have : |if i ∣ n then moebius (n / i) * (2 : ℤ) ^ i else 0| ≤ 2 ^ i := by
      split
      · rw [abs_mul, abs_of_pos (show (0 : ℤ) < 2 ^ i by positivity)]
        have := ArithmeticFunction.abs_moebius_le_one (n := n / i)
        nlinarith [show (0 : ℤ) < 2 ^ i by positivity]
      · simp
    have := abs_add_le (psum n i) (if i ∣ n then moebius (n / i) * (2 : ℤ) ^ i else 0)
    omega

theorem psum_all {n : ℕ} (hn : 0 < n) : psum n (n + 1) = n * irrCount (ZMod 2) n := by
  have := moebius_irrCount (K := ZMod 2) hn
  rw [ZMod.card] at this
  rw [← this, psum, Finset.filter_true_of_mem]
  · simp
  · intro d hd
    have := Nat.divisor_le hd
    omega

theorem imod_nat {n d : ℕ} (hd : 0 < d) (hn : n ≤ 2147483647) : imod n d = ok ((n % d : ℕ) : Int) := by
  rw [imod_nonneg_ok (by omega) (by omega) (by omega), Int.natCast_mod]

theorem idiv_nat {n d : ℕ} (hd : 0 < d) (hn : n ≤ 2147483647) : idiv n d = ok ((n / d : ℕ) : Int) := by
  have h1 : (n : Int).tdiv d = ((n / d : ℕ) : Int) := by rw [Int.tdiv_eq_ediv_of_nonneg (by omega), Int.natCast_div]
  have h2 : n / d ≤ n := Nat.div_le_self _ _
  unfold idiv
  rw [if_neg (by omega), h1]
  generalize n / d = q at h2
  rw [chk_ok (by unfold InInt; omega)]

theorem two_pow_30 {i : ℕ} (hi : i ≤ 31) : (2 : ℤ) ^ i ≤ 2147483648 := by
  have : (2 : ℤ) ^ i ≤ 2 ^ 31 := by gcongr; norm_num
  norm_num at this; exact this

theorem num_irreds_deg_is_ok {n : ℕ} (h1 : 1 ≤ n) (h2 : n ≤ 30) : num_irreds_deg_is n = ok (irrCount (ZMod 2) n : Int) := by
  unfold num_irreds_deg_is
  have key := forUp_ok (lo := 1) (hi := n + 1) (s := (0 : Int)) (body := fun d sum => do
    let r ← imod n d
    if r = 0 then do
      let q ← idiv n d
      let m ← calc_moebius q
      let s ← ishl 1 d
      let t ← imul m s
      iadd sum t
    else ok sum) (fun i s => s = psum n i) (by omega)
    (by rw [psum, Finset.filter_false_of_mem]; · simp
        · intro d hd; have := Nat.pos_of_mem_divisors hd; omega) (by
      intro i s hi hn hs
      rw [imod_nat (by omega) (by omega), ok_bind]
      have hb := psum_bound (n := n) (by omega) i
      have hb' := psum_bound (n := n) (by omega) (i + 1)
      have p1 := two_pow_30 (i := i + 1) (by omega)
      have p0 : (0 : ℤ) < 2 ^ i := by positivity
      rw [pow_succ] at p1 hb'
      by_cases h : i ∣ n
      · have hle := Nat.div_le_self n i
        have hpos : 1 ≤ n / i := Nat.div_pos (by omega) (by omega)
        have e := psum_succ (n := n) (i := i) (by omega)
        rw [if_pos h] at e
        have ht : |moebius (n / i) * (2 : ℤ) ^ i| ≤ 2 ^ i := by
          rw [abs_mul, abs_of_pos p0]
          have := ArithmeticFunction.abs_moebius_le_one (n := n / i)
          nlinarith
        rw [if_pos (by exact_mod_cast Nat.mod_eq_zero_of_dvd h), idiv_nat (by omega) (by omega), ok_bind,
          calc_moebius_ok hpos (by omega), ok_bind, F2P.ishl_one (by omega), ok_bind, imul, chk_ok (by
            rw [abs_le] at ht; unfold InInt; omega), ok_bind, iadd, hs, chk_ok (by
            rw [abs_lt] at hb'; unfold InInt; omega), Ok_ok, e]
      · have e := psum_succ (n := n) (i := i) (by omega)
        rw [if_neg h, add_zero] at e
        rw [if_neg (by
          intro h'; exact h (Nat.dvd_of_mod_eq_zero (by exact_mod_cast h'))), Ok_ok, e, hs])
  obtain ⟨s, hs, e⟩ := key
  rw [Int.toNat_natCast]
  rw [hs, ok_bind, e, psum_all (by omega)]
  have hb := psum_bound (n := n) (by omega) (n + 1)
  have p1 := two_pow_30 (i := n + 1) (by omega)
  rw [psum_all (by omega)] at hb
  rw [abs_lt] at hb
  rw [show ((n : ℤ) * (irrCount (ZMod 2) n : ℤ)) = ((n * irrCount (ZMod 2) n : ℕ) : ℤ) by push_cast; rfl] at hb ⊢
  rw [idiv_nat (by omega) (by omega), Nat.mul_div_cancel_left _ (by omega)]

theorem irrCount_le {n : ℕ} (hn : 0 < n) {i : ℕ} : ∑ d ∈ n.divisors with d < i, irrCount (ZMod 2) d ≤ 2 ^ n := by
  have := sum_irrCount (K := ZMod 2) hn
  rw [ZMod.card] at this
  rw [← this]
  refine (Finset.sum_le_sum_of_subset (Finset.filter_subset _ _)).trans (Finset.sum_le_sum fun d hd => ?_)
  exact Nat.le_mul_of_pos_left _ (Nat.pos_of_mem_divisors hd)

theorem irr_succ {n i : ℕ} (hn : 0 < n) (f : ℕ → ℕ) :
    ∑ d ∈ n.divisors with d < i + 1, f d = (∑ d ∈ n.divisors with d < i, f d) + if i ∣ n then f i else 0 := by
  split
  · rename_i h
    rw [show (n.divisors.filter (· < i + 1)) = insert i (n.divisors.filter (· < i)) from ?_, Finset.sum_insert (by simp), add_comm]
    ext d
    simp only [Finset.mem_filter, Nat.mem_divisors, Finset.mem_insert]
    constructor
    · rintro ⟨h1, h2⟩
      by_cases e : d = i
      · exact Or.inl e
      · exact Or.inr ⟨h1, by omega⟩
    · rintro (rfl | ⟨h1, h2⟩)
      · exact ⟨⟨h, hn.ne'⟩, by omega⟩
      · exact ⟨h1, by omega⟩
  · rename_i h
    rw [add_zero]
    congr 1
    ext d
    simp only [Finset.mem_filter, Nat.mem_divisors]
    constructor
    · rintro ⟨h1, h2⟩
      refine ⟨h1, ?_⟩
      have : d ≠ i := by rintro rfl; exact h h1.1
      omega
    · rintro ⟨h1, h2⟩; exact ⟨h1, by omega⟩

theorem num_irreds_deg_divides_ok {n : ℕ} (h1 : 1 ≤ n) (h2 : n ≤ 30) :
    num_irreds_deg_divides n = ok ((∑ d ∈ n.divisors, irrCount (ZMod 2) d : ℕ) : Int) := by
  unfold num_irreds_deg_divides
  rw [Int.toNat_natCast]
  obtain ⟨s, hs, e⟩ := forUp_ok (lo := 1) (hi := n + 1) (s := (0 : Int)) (body := fun d sum => do
    let r ← imod n d
    if r = 0 then do
      let c ← num_irreds_deg_is d
      iadd sum c
    else ok sum) (fun i s => s = ((∑ d ∈ n.divisors with d < i, irrCount (ZMod 2) d : ℕ) : Int)) (by omega)
    (by rw [Finset.filter_false_of_mem]; · simp
        · intro d hd; have := Nat.pos_of_mem_divisors hd; omega) (by
      intro i s hi hn hs
      rw [imod_nat (by omega) (by omega), ok_bind]
      have e := irr_succ (n := n) (i := i) (by omega) (irrCount (ZMod 2))
      have hb := irrCount_le (n := n) (by omega) (i := i + 1)
      have p1 := two_pow_30 (i := n + 1) (by omega)
      rw [pow_succ] at p1
      have p2 : (2 ^ n : ℕ) ≤ 1073741824 := by zify; omega
      by_cases h : i ∣ n
      · rw [if_pos h] at e
        rw [if_pos (by exact_mod_cast Nat.mod_eq_zero_of_dvd h), num_irreds_deg_is_ok hi (by omega), ok_bind, iadd, hs,
          chk_ok (by unfold InInt; omega), Ok_ok, e]
        push_cast; rfl
      · rw [if_neg h, add_zero] at e
        rw [if_neg (by
          intro h'; exact h (Nat.dvd_of_mod_eq_zero (by exact_mod_cast h'))), Ok_ok, e, hs])
  rw [hs, e, Finset.filter_true_of_mem]
  intro d hd
  have := Nat.divisor_le hd
  omega

/-! ### The list of irreducible polynomials -/
section list
open F2P
variable {U : Prop} {tm : TrimMask} (H : ∀ k, (tm k).Sat U fun _ => True)

theorem le_ok {a b : F2P} (ha : a ≠ []) (hb : b ≠ []) : F2P.le a b = ok (decide (nval (toPoly a) ≤ nval (toPoly b))) := by
  unfold F2P.le
  rw [cmp_ok ha hb, ok_bind]
  congr 1
  unfold dir
  split
  · simp; omega
  · split
    · simp; omega
    · simp; omega

theorem monic_of_ne {p : (ZMod 2)[X]} (h : p ≠ 0) : p.Monic := by
  rcases one_or_zero p.leadingCoeff with h1 | h1
  · exact absurd (leadingCoeff_eq_zero.1 h1) h
  · exact h1

theorem exists_irr_eq {n : ℕ} (hn : 0 < n) :
    ∃ T : Finset (ZMod 2)[X], (∀ f, f ∈ T ↔ Irreducible f ∧ f.natDegree = n) ∧ T.card = irrCount (ZMod 2) n := by
  obtain ⟨S, hS, -⟩ := exists_irr_finset (K := ZMod 2) hn
  refine ⟨S.filter fun f => f.natDegree = n, fun f => ?_, card_irr_filter hS dvd_rfl⟩
  rw [Finset.mem_filter, hS]
  exact ⟨fun h => ⟨h.1.2.1, h.2⟩, fun h => ⟨⟨monic_of_ne h.1.ne_zero, h.1, h.2 ▸ dvd_rfl⟩, h.2⟩⟩

/-- The list holds all irreducible polynomials of degree `n`, each once, in ascending order. -/
structure AllIrr (n : ℕ) (L : List F2P) : Prop where
  canon : ∀ a ∈ L, Canon a
  asc : L.Pairwise fun a b => nval (toPoly a) < nval (toPoly b)
  mem : ∀ p : (ZMod 2)[X], p ∈ L.map toPoly ↔ Irreducible p ∧ p.natDegree = n

/-- those below `f` have been found -/
structure Found (n : ℕ) (v : ℕ) (L : List F2P) : Prop where
  canon : ∀ a ∈ L, Canon a
  asc : L.Pairwise fun a b => nval (toPoly a) < nval (toPoly b)
  mem : ∀ p : (ZMod 2)[X], p ∈ L.map toPoly ↔ Irreducible p ∧ p.natDegree = n ∧ nval p < v

theorem Found.nodup {n v : ℕ} {L : List F2P} (h : Found n v L) : (L.map toPoly).Nodup := by
  rw [List.Nodup, List.pairwise_map]
  exact h.asc.imp fun h e => by rw [e] at h; omega

include H in
theorem findLoop_sat {n N : ℕ} (hn : 0 < n) (hmax : (n : Int) ≤ INT_MAX) {T : Finset (ZMod 2)[X]}
    (hT : ∀ f, f ∈ T ↔ Irreducible f ∧ f.natDegree = n) (hN : T.card = N) {fhi : F2P} (hhi : fhi ≠ [])
    (hv : nval (toPoly fhi) = 2 ^ (n + 1) - 1) : ∀ (k : ℕ) (f : F2P) (done rest : List F2P), Canon f → 2 ^ n ≤ nval (toPoly f) → nval (toPoly f) ≤ 2 ^ (n + 1) →
    2 ^ (n + 1) < nval (toPoly f) + k → Found n (nval (toPoly f)) done → (done ++ rest).length = N →
    (findLoop tm fhi N k f done.length (done ++ rest)).Sat U (AllIrr n)
  | 0, f, done, rest, hc, hge, hub, hk, hF, hl => by omega
  | k + 1, f, done, rest, hc, hge, hub, hk, hF, hl => by
    have hpow : 0 < 2 ^ (n + 1) := by positivity
    unfold findLoop
    rw [le_ok hc.ne_nil hhi, ok_bind, hv]
    by_cases hle : nval (toPoly f) ≤ 2 ^ (n + 1) - 1
    · rw [decide_eq_true hle, if_pos rfl]
      have hd : (toPoly f).natDegree = n := natDegree_of_nval hge (by omega)
      refine (is_irreducible_sat H hc (by rw [hd]; exact hmax)).bind fun b hb => ?_
      obtain ⟨f', hf', hv', hc'⟩ := increment_ok hc
      split
      · rename_i hbt
        have hirr := hb.1 hbt
        have hnd : (toPoly f :: done.map toPoly).Nodup := by
          refine List.nodup_cons.2 ⟨fun h => ?_, hF.nodup⟩
          have := ((hF.mem _).1 h).2.2
          omega
        have hcard : done.length + 1 ≤ N := by
          rw [← hN]
          have := Finset.card_le_card (s := (toPoly f :: done.map toPoly).toFinset) (t := T) (by
            intro p hp
            rw [List.mem_toFinset, List.mem_cons] at hp
            rw [hT]
            rcases hp with rfl | hp
            · exact ⟨hirr, hd⟩
            · have := (hF.mem _).1 hp; exact ⟨this.1, this.2.1⟩)
          rw [List.toFinset_card_of_nodup hnd] at this
          simpa using this
        rw [if_neg (by omega)]
        obtain ⟨x, rest, rfl⟩ : ∃ x r, rest = x :: r := by
          cases rest with
          | nil => simp at hl; omega
          | cons x r => exact ⟨x, r, rfl⟩
        have hw : wr (done ++ x :: rest) done.length f = ok ((done ++ [f]) ++ rest) := by
          rw [wr_ok (by simp)]
          simp
        rw [hw, ok_bind, hf', ok_bind]
        have := findLoop_sat hn hmax hT hN hhi hv k f' (done ++ [f]) rest hc' (by omega) (by omega) (by omega) ⟨?_, ?_, ?_⟩ (by simpa using hl)
        · simpa using this
        · intro a ha
          rcases List.mem_append.1 ha with h | h
          · exact hF.canon a h
          · rw [List.mem_singleton.1 h]; exact hc
        · rw [List.pairwise_append]
          refine ⟨hF.asc, by simp, fun a ha b hb => ?_⟩
          rw [List.mem_singleton.1 hb]
          exact ((hF.mem _).1 (List.mem_map.2 ⟨a, ha, rfl⟩)).2.2
        · intro p
          rw [List.map_append, List.mem_append, hF.mem, List.map_singleton, List.mem_singleton, hv']
          constructor
          · rintro (⟨h1, h2, h3⟩ | rfl)
            · exact ⟨h1, h2, by omega⟩
            · exact ⟨hirr, hd, by omega⟩
          · rintro ⟨h1, h2, h3⟩
            by_cases e : nval p = nval (toPoly f)
            · exact Or.inr (nval_inj e)
            · exact Or.inl ⟨h1, h2, by omega⟩
      · rename_i hbf
        rw [hf', ok_bind]
        refine findLoop_sat hn hmax hT hN hhi hv k f' done rest hc' (by omega) (by omega) (by omega) ⟨hF.canon, hF.asc, fun p => ?_⟩ hl
        rw [hF.mem, hv']
        constructor
        · rintro ⟨h1, h2, h3⟩; exact ⟨h1, h2, by omega⟩
        · rintro ⟨h1, h2, h3⟩
          refine ⟨h1, h2, ?_⟩
          have : nval p ≠ nval (toPoly f) := fun e => hbf (hb.2 (nval_inj e ▸ h1))
          omega
    · rw [decide_eq_false hle, if_neg (by simp), Sat_ok]
      have hall : ∀ p : (ZMod 2)[X], p ∈ done.map toPoly ↔ Irreducible p ∧ p.natDegree = n := fun p => by
        rw [hF.mem]
        constructor
        · rintro ⟨h1, h2, _⟩; exact ⟨h1, h2⟩
        · rintro ⟨h1, h2⟩
          have := nval_lt_pow p
          rw [h2] at this
          exact ⟨h1, h2, by omega⟩
      have hlen : done.length = N := by
        rw [← hN, ← List.length_map (f := toPoly), ← List.toFinset_card_of_nodup hF.nodup]
        congr 1
        ext p
        rw [List.mem_toFinset, hall, hT]
      have hr : rest = [] := by
        rw [List.length_append] at hl
        exact List.length_eq_zero_iff.1 (by omega)
      subst hr
      rw [List.append_nil]
      exact ⟨hF.canon, hF.asc, hall⟩

theorem nval_word {v : ℕ} (h : v < 2 ^ 31) : nval (toPoly (from_base_rep (BitVec.ofInt 64 (v : Int)))) = v := by
  rw [nval_toPoly]
  simp only [from_base_rep, val, mul_zero, add_zero]
  rw [BitVec.ofInt_natCast, BitVec.toNat_ofNat, Nat.mod_eq_of_lt (by omega)]

theorem canon_word (w : BitVec 64) : Canon (from_base_rep w) := canon_single w

include H in
theorem irreds_sat {n : ℕ} (h1 : 1 ≤ n) (h2 : n ≤ 29) : (irreds tm n).Sat U (AllIrr n) := by
  unfold irreds find_irreds
  obtain ⟨T, hT, hN⟩ := exists_irr_eq (n := n) (by omega)
  rw [num_irreds_deg_is_ok h1 (by omega), ok_bind, if_neg (by omega), F2P.ishl_one (by omega), ok_bind, iadd,
    chk_ok (by unfold InInt; omega), ok_bind, show ((n : Int) + 1) = ((n + 1 : ℕ) : Int) by push_cast; rfl,
    F2P.ishl_one (by omega), ok_bind]
  have p1 := two_pow_30 (i := n + 1) (by omega)
  have p2 : 2 ^ (n + 1) < 2 ^ 31 := Nat.pow_lt_pow_right (by norm_num) (by omega)
  have p3 : 2 ^ (n + 1) = 2 * 2 ^ n := by rw [pow_succ]; ring
  have p4 : 0 < 2 ^ n := by positivity
  have p5 : (0 : Int) < 2 ^ (n + 1) := by positivity
  rw [isub, chk_ok (by unfold InInt; omega), ok_bind, Int.toNat_natCast, Int.toNat_natCast,
    show (2 : Int) ^ (n + 1) - 1 = ((2 ^ (n + 1) - 1 : ℕ) : Int) by push_cast [Nat.one_le_two_pow]; rfl,
    show (2 : Int) ^ n = ((2 ^ n : ℕ) : Int) by push_cast; rfl]
  have e1 := nval_word (v := 2 ^ (n + 1) - 1) (by omega)
  have e2 := nval_word (v := 2 ^ n) (by omega)
  refine findLoop_sat H (by omega) (by unfold INT_MAX; omega) hT hN (canon_word _).ne_nil e1 (2 ^ n + 1) _ [] _ (canon_word _)
    (by rw [e2]) (by rw [e2]; omega) (by rw [e2]; omega) ⟨by simp, by simp, fun p => ?_⟩ (by simp)
  rw [e2]
  constructor
  · intro h; simp at h
  · rintro ⟨h1, h2, h3⟩
    have := pow_le_nval h1.ne_zero
    rw [h2] at this
    omega

end list

end Spffl.Chart
