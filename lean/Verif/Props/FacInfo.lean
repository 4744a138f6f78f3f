/-
Property theorems for factor lists and integer factorization (C11, C33 - C35).
-/
import Verif.Proof.Divisors

namespace Spffl
open Res
namespace FacInfo

/-! ### C11 -/

/-- Factorization of every int other than the smallest one: primes, strictly increasing, positive counts,
and the product with the unit is `n`. -/
theorem C11_int_factor (n : Int) (hn : InInt n) (hm : n ≠ INT_MIN) :
    ∃ f, int_factor n = ok f ∧
      (∀ p ∈ f.facs, 0 < p.1 ∧ Nat.Prime p.1.natAbs ∧ 0 < p.2) ∧
      (f.facs.map Prod.fst).Pairwise (· < ·) ∧
      (f.unit.getD 1) * (f.facs.map fun p => p.1 ^ p.2.toNat).prod = n ∧
      (∀ u, f.unit = some u → -1 ≤ u ∧ u ≤ 1) := by
  by_cases h1 : -1 ≤ n ∧ n ≤ 1
  · refine ⟨⟨[], some n⟩, ?_, by simp, by simp, by simp, ?_⟩
    · simp [int_factor, h1, insert_unit, empty]
    · rintro u h; cases h; exact h1
  · have h2 : 2 ≤ n.natAbs := by omega
    have h3 : n.natAbs ≤ 2147483647 := by unfold InInt INT_MIN at *; omega
    obtain ⟨l, hl, hf⟩ := int_factor_ok h2 h3
    refine ⟨_, hl, ?_, ?_, ?_, ?_⟩
    · intro p hp
      obtain ⟨q, hq, rfl⟩ := List.mem_map.mp hp
      obtain ⟨h4, h5⟩ := hf.prime q hq
      exact ⟨by simpa using h4.pos, by simpa using h4, by simpa using h5⟩
    · have := hf.sorted
      simp only [stored, List.map_map]
      rw [List.pairwise_map] at this ⊢
      exact this.imp fun h => by simpa using h
    · have hp : ((stored l).map fun p => p.1 ^ p.2.toNat).prod = ((pprod l : ℕ) : Int) := by
        simp only [stored, List.map_map, pprod]
        push_cast [Nat.cast_list_prod, List.map_map]
        congr 1
      simp only [hp, hf.prod]
      split
      · simp only [Option.getD_some]; omega
      · simp only [Option.getD_none]; omega
    · intro u hu
      simp only at hu
      split at hu
      · cases hu; omega
      · cases hu

example : int_factor (-360) = ok ⟨[(2, 3), (3, 2), (5, 1)], some (-1)⟩ := by decide +kernel
example : int_factor 131071 = ok ⟨[(131071, 1)], none⟩ := by decide +kernel

/-- The smallest int is undefined. -/
theorem C11_int_min : int_factor INT_MIN = ub := by decide +kernel

/-! ### C33, C34 -/

/-- Programs that build a factor list. -/
inductive Build (α : Type) where
  | empty
  | insert (b : Build α) (e : α) (count : ℕ)
  | unit (b : Build α) (e : α)
  | merge (b c : Build α)
  | expAll (b : Build α) (k : ℕ)

namespace Build
variable {α R K : Type}

/-- Running the program. -/
def run (O : EltOps α) : Build α → Res (FacInfo α)
  | .empty => ok FacInfo.empty
  | .insert b e c => do let f ← run O b; insert_factor O f e c
  | .unit b e => do let f ← run O b; insert_unit O f e
  | .merge b c => do let f ← run O b; let g ← run O c; FacInfo.merge O f g
  | .expAll b k => do let f ← run O b; exp_all O f k

/-- Specification: how often each element was inserted. -/
def ms (v : α → R) : Build α → Multiset R
  | .empty => 0
  | .insert b e c => b.ms v + Multiset.replicate c (v e)
  | .unit b _ => b.ms v
  | .merge b c => b.ms v + c.ms v
  | .expAll b k => k • b.ms v

/-- Specification: the accumulated unit, if any. -/
def un [CommRing R] (v : α → R) : Build α → Option R
  | .empty => none
  | .insert b _ _ => b.un v
  | .unit b e => some ((b.un v).getD 1 * v e)
  | .merge b c => match b.un v, c.un v with
    | none, w => w
    | some x, none => some x
    | some x, some y => some (x * y)
  | .expAll b k => (b.un v).map (· ^ k)

/-- Specification: the value denoted. -/
def val [CommRing R] (v : α → R) : Build α → R
  | .empty => 1
  | .insert b e c => b.val v * v e ^ c
  | .unit b e => b.val v * v e
  | .merge b c => b.val v * c.val v
  | .expAll b k => b.val v ^ k

/-- No `int` count overflows, and every unit product stays where the element type can represent it. -/
def Safe [CommRing R] (rep : α → R → Prop) (D : R → Prop) (v : α → R) : Build α → Prop
  | .empty => True
  | .insert b e c => b.Safe rep D v ∧ rep e (v e) ∧ ((b.ms v).card : Int) + c ≤ INT_MAX
  | .unit b e => b.Safe rep D v ∧ rep e (v e) ∧ D ((b.un v).getD 1 * v e)
  | .merge b c => b.Safe rep D v ∧ c.Safe rep D v ∧ ((b.ms v).card : Int) + (c.ms v).card ≤ INT_MAX ∧
      D ((b.un v).getD 1 * (c.un v).getD 1)
  | .expAll b k => b.Safe rep D v ∧ (k : Int) ≤ INT_MAX ∧ (k : Int) * (b.ms v).card ≤ INT_MAX ∧
      ∀ x, b.un v = some x → x ≠ 0 ∧ D (x ^ k) ∧ D (x ^ 2 ^ Nat.size k)

theorem run_ok [CommRing R] [LinearOrder K] {O : EltOps α} {rep : α → R → Prop} {D : R → Prop}
    {key : R → K} (H : FacRef O rep D key) (v : α → R) : ∀ b : Build α, b.Safe rep D v →
    (b.run O).Ok (fun f => MsDen rep key f (b.ms v) (b.un v))
  | .empty, _ => by
    simp only [run, Ok_ok]
    exact ⟨[], den_empty, List.Pairwise.nil, rfl⟩
  | .insert b e c, ⟨h1, h2, h3⟩ => by
    refine (run_ok H v b h1).bind fun f hf => ?_
    exact msden_insert H hf h2 c h3
  | .unit b e, ⟨h1, h2, h3⟩ => by
    refine (run_ok H v b h1).bind fun f hf => ?_
    have hu : uMul (b.un v) (some (v e)) = some ((b.un v).getD 1 * v e) := by
      cases b.un v <;> simp [uMul]
    have := insert_unit_ok H hf h2 (by rw [hu]; rintro x ⟨⟩; exact h3)
    rw [hu] at this; exact this
  | .merge b c, ⟨h1, h2, h3, h4⟩ => by
    refine (run_ok H v b h1).bind fun f hf => ?_
    refine (run_ok H v c h2).bind fun g hg => ?_
    have hu : uMul (b.un v) (c.un v) = (Build.merge b c).un v := by
      simp only [un]
      generalize b.un v = x
      generalize c.un v = y
      cases x <;> cases y <;> rfl
    have := msden_merge H hf hg h3 (by
      intro x hx
      generalize b.un v = p at *
      generalize c.un v = q at *
      cases p with
      | none =>
        cases q with
        | none => simp [uMul] at hx
        | some y => simp [uMul] at hx h4; rw [← hx]; exact h4
      | some z =>
        cases q with
        | none => simp [uMul] at hx h4; rw [← hx]; exact h4
        | some y => simp [uMul] at hx h4; rw [← hx]; exact h4)
    rw [hu] at this; exact this
  | .expAll b k, ⟨h1, h2, h3, h4⟩ => by
    refine (run_ok H v b h1).bind fun f hf => ?_
    exact msden_exp_all H hf k h2 h3 h4

theorem val_eq [CommRing R] (v : α → R) : ∀ b : Build α, prodOf (b.ms v) (b.un v) = b.val v
  | .empty => by simp [prodOf, ms, un, val]
  | .insert b e c => by
    have := val_eq v b
    simp only [prodOf, ms, un, val, Multiset.prod_add, Multiset.prod_replicate] at this ⊢
    rw [← this]; ring
  | .unit b e => by
    have := val_eq v b
    simp only [prodOf, ms, un, val, Option.getD_some] at this ⊢
    rw [← this]; ring
  | .merge b c => by
    have h1 := val_eq v b
    have h2 := val_eq v c
    simp only [prodOf, ms, un, val, Multiset.prod_add] at h1 h2 ⊢
    rw [← h1, ← h2]
    cases b.un v <;> cases c.un v <;> simp <;> ring
  | .expAll b k => by
    have h1 := val_eq v b
    simp only [prodOf, ms, un, val, Multiset.prod_nsmul] at h1 ⊢
    rw [← h1, mul_pow]
    cases b.un v <;> simp

end Build

open Build in
/-- After any building program the stored factors are strictly increasing, and the stored multiplicities
are exactly how often each element was inserted (merges and powers included). -/
theorem C33_sorted_multiset {α R K : Type} [CommRing R] [LinearOrder K] {O : EltOps α}
    {rep : α → R → Prop} {D : R → Prop} {key : R → K} (H : FacRef O rep D key) (v : α → R)
    (b : Build α) (hs : b.Safe rep D v) :
    ∃ f l, b.run O = ok f ∧
      List.Forall₂ (fun (p : α × Int) (q : R × ℕ) => rep p.1 q.1 ∧ p.2 = (q.2 : Int)) f.facs l ∧
      l.Pairwise (fun p q => key p.1 < key q.1) ∧
      (l.map fun q => Multiset.replicate q.2 q.1).sum = b.ms v := by
  obtain ⟨f, hf, l, h1, h2, h3⟩ := run_ok H v b hs
  exact ⟨f, l, hf, h1.1, h2, h3⟩

/-- Strict order makes the stored count of a factor its multiplicity. -/
theorem C33_count {R K : Type} [DecidableEq R] [LinearOrder K] {key : R → K} : ∀ (l : List (R × ℕ)),
    l.Pairwise (fun p q => key p.1 < key q.1) → ∀ q ∈ l,
    ((l.map fun q => Multiset.replicate q.2 q.1).sum).count q.1 = q.2
  | [], _, q, hq => by simp at hq
  | p :: l, h, q, hq => by
    rw [List.pairwise_cons] at h
    have hz : ∀ (m : List (R × ℕ)) (x : R), (∀ r ∈ m, r.1 ≠ x) →
        ((m.map fun q => Multiset.replicate q.2 q.1).sum).count x = 0 := by
      intro m x hm
      induction m with
      | nil => simp
      | cons r m ih =>
        rw [List.map_cons, List.sum_cons, Multiset.count_add, ih (fun s hs => hm s (by simp [hs])),
          Multiset.count_replicate, if_neg (hm r (by simp))]
    rw [List.map_cons, List.sum_cons, Multiset.count_add, Multiset.count_replicate]
    rcases List.mem_cons.mp hq with rfl | hq
    · rw [if_pos rfl, hz l q.1 (fun r hr he => by have := h.1 r hr; rw [he] at this; exact lt_irrefl _ this)]
      rfl
    · have hne : p.1 ≠ q.1 := fun he => by
        have := h.1 q hq; rw [he] at this; exact lt_irrefl _ this
      rw [if_neg hne, zero_add]
      exact C33_count l h.2 q hq

/-- A program over `int`: insert 5, 2, 5, raise to the power 3, merge with 2^4. -/
def demo : Build Int :=
  .merge (.expAll (.insert (.insert (.insert .empty 5 1) 2 1) 5 1) 3) (.insert .empty 2 4)

example : demo.Safe (fun (a x : ℤ) => a = x ∧ InInt x) DInt id := by
  simp only [demo, Build.Safe, Build.ms, Build.un]
  simp [INT_MAX, InInt, DInt]
example : demo.run intOps = ok ⟨[(2, 7), (5, 6)], none⟩ := by decide +kernel

open Build in
/-- `unfactor` after any building program is the value of the program read as arithmetic: insertion
multiplies, `merge` multiplies, `exp_all` raises to a power. -/
theorem C34_unfactor {α R K : Type} [CommRing R] [LinearOrder K] {O : EltOps α}
    {rep : α → R → Prop} {D : R → Prop} {key : R → K} (H : FacRef O rep D key) (v : α → R)
    (b : Build α) (hs : b.Safe rep D v) (one : α) (hone : rep one 1) (hD : D (b.val v)) :
    (b.run O >>= fun f => unfactor O f one).Ok (fun r => rep r (b.val v)) := by
  refine (run_ok H v b hs).bind fun f ⟨l, h1, _, h3⟩ => ?_
  have hv : prodOf (toMs l) (b.un v) = b.val v := by rw [h3, val_eq]
  rw [← hv] at hD ⊢
  exact unfactor_ok H h1 hone hD

example : demo.val (id : ℤ → ℤ) = 2000000 ∧ (demo.run intOps >>= fun f => unfactor intOps f 1) = ok 2000000 := by
  refine ⟨by simp [demo, Build.val], by decide +kernel⟩

/-! ### C35 -/

/-- The number of divisors reported for the factorization of any positive int. -/
theorem C35_num_divisors (n : Int) (h1 : 1 ≤ n) (hn : InInt n) :
    (int_factor n >>= get_num_divisors) = ok ((n.toNat.divisors.card : ℕ) : Int) := by
  by_cases h : n = 1
  · subst h; decide +kernel
  · have h3 : n.natAbs ≤ 2147483647 := by unfold InInt at *; omega
    obtain ⟨l, hl, hf⟩ := int_factor_ok (n := n) (by omega) h3
    have hl0 : l ≠ [] := by
      rintro rfl
      have := hf.prod; simp [pprod] at this; omega
    rw [hl, ok_bind, get_num_divisors_ok hf h3 _ (Or.inl hl0)]
    congr 2
    rw [show n.toNat = n.natAbs by omega]
    symm
    apply Finset.card_eq_of_equiv_fin
    refine Equiv.symm (Equiv.ofBijective (fun k : Fin (ndiv l) => ⟨kthA l k, ?_⟩) ⟨?_, ?_⟩)
    · rw [Nat.mem_divisors]
      exact ⟨by have := kthA_dvd l k; rwa [hf.prod] at this, hf.pos.ne'⟩
    · intro a b he
      have := kthA_inj hf a b a.2 b.2 (by simpa using he)
      exact Fin.ext this
    · rintro ⟨d, hd⟩
      obtain ⟨k, hk, he⟩ := kthA_surj hf d (by rw [hf.prod]; exact (Nat.mem_divisors.mp hd).1)
      exact ⟨⟨k, hk⟩, by simpa using he⟩

example : (int_factor 72 >>= get_num_divisors) = ok 12 := by decide +kernel

/-- All divisors, ascending, each exactly once - provided the squarings in the power routine stay in
range: for every prime `p` with multiplicity `c` the number `p^(2^bitlength(c))` fits an int.  Missing
for the full property: the remaining `n`, where it is false (`C35_violated`). -/
theorem C35_all_divisors_partial (n : Int) (h1 : 1 ≤ n) (hn : InInt n)
    (hp : ∀ p : ℕ, p.Prime → p ∣ n.toNat →
      p ^ 2 ^ Nat.size (n.toNat.factorization p) ≤ 2147483647) :
    ∃ L, (int_factor n >>= fun f => get_all_divisors intOps f 1) = ok L ∧ L.Pairwise (· < ·) ∧
      ∀ d : Int, d ∈ L ↔ 0 < d ∧ d ∣ n := by
  by_cases h : n = 1
  · subst h
    refine ⟨[1], by decide +kernel, by simp, ?_⟩
    intro d
    simp only [List.mem_singleton]
    constructor
    · rintro rfl; simp
    · rintro ⟨h0, hd⟩
      have := Int.le_of_dvd (by norm_num) hd; omega
  · have h3 : n.natAbs ≤ 2147483647 := by unfold InInt at *; omega
    obtain ⟨l, hl, hf⟩ := int_factor_ok (n := n) (by omega) h3
    have hl0 : l ≠ [] := by
      rintro rfl
      have := hf.prod; simp [pprod] at this; omega
    have hfz : ∀ q ∈ l, n.toNat.factorization q.1 = q.2 := by
      intro q hq
      rw [show n.toNat = n.natAbs by omega, ← hf.prod]
      clear hl hl0
      obtain ⟨N, hN⟩ : ∃ N, N = n.natAbs := ⟨_, rfl⟩
      rw [← hN] at hf
      clear hN hp h3
      induction l generalizing N with
      | nil => simp at hq
      | cons r l ih =>
        have hr := hf.head
        have hlpos : pprod l ≠ 0 := hf.tail.pos.ne'
        have he : pprod (r :: l) = r.1 ^ r.2 * pprod l := by simp [pprod]
        rw [he, Nat.factorization_mul (pow_ne_zero _ hr.1.ne_zero) hlpos, Finsupp.add_apply,
          Nat.factorization_pow, Finsupp.smul_apply]
        rcases List.mem_cons.mp hq with rfl | hq
        · rw [Nat.factorization_eq_zero_of_not_dvd hr.2, hr.1.factorization_self]; simp
        · have hs := hf.sorted
          rw [List.map_cons, List.pairwise_cons] at hs
          have hne : r.1 < q.1 := hs.1 _ (List.mem_map.mpr ⟨q, hq, rfl⟩)
          have hqp := (hf.prime q (by simp [hq])).1
          have : r.1.factorization q.1 = 0 := by
            refine Nat.factorization_eq_zero_of_not_dvd fun hd => ?_
            have := (Nat.prime_dvd_prime_iff_eq hqp hr.1).mp hd
            omega
          rw [this, smul_zero, zero_add]
          exact ih hq _ hf.tail
    have hpow : PowOk l := by
      intro q hq
      have := hp q.1 (hf.prime q hq).1 (by
        rw [show n.toNat = n.natAbs by omega]
        exact (hf.mem_iff q.1 (hf.prime q hq).1).mpr ⟨q, hq, rfl⟩)
      rwa [hfz q hq] at this
    obtain ⟨L, hL, hs, hd⟩ := get_all_divisors_ok h3 hf hpow (if n < 0 then some (-1) else none) (Or.inl hl0)
    refine ⟨L, by rw [hl, ok_bind, hL], hs, ?_⟩
    intro d
    rw [hd, show ((n.natAbs : ℕ) : Int) = n by omega]

example : (int_factor 72 >>= fun f => get_all_divisors intOps f 1) =
    ok [1, 2, 3, 4, 6, 8, 9, 12, 18, 24, 36, 72] := by decide +kernel

/-- A prime above 46340, and the square of a prime above 215: enumeration overflows although every
divisor is representable. -/
theorem C35_violated :
    (int_factor 65537 >>= fun f => get_all_divisors intOps f 1) = ub ∧
    (int_factor 66049 >>= fun f => get_all_divisors intOps f 1) = ub := by
  constructor <;> decide +kernel

/-- Maximal proper divisors of any int with an absolute value of at least 2: exactly the quotients by a
prime, ascending. -/
theorem C35_maximal_divisors (n : Int) (h2 : 2 ≤ n.natAbs) (hn : InInt n) (hm : n ≠ INT_MIN) :
    ∃ L, (int_factor n >>= fun f => get_maximal_proper_divisors intOps f 1) = ok (some L) ∧
      L.Pairwise (· < ·) ∧ ∀ d : Int, d ∈ L ↔ ∃ p : ℕ, p.Prime ∧ d * p = n := by
  have h3 : n.natAbs ≤ 2147483647 := by unfold InInt INT_MIN at *; omega
  obtain ⟨l, hl, hf⟩ := int_factor_ok h2 h3
  obtain ⟨L, hL, hr⟩ := get_maximal_ok h2 h3 hf
  exact ⟨L, by rw [hl, ok_bind, hL], hr⟩

example : (int_factor 360 >>= fun f => get_maximal_proper_divisors intOps f 1) =
    ok (some [72, 120, 180]) := by decide +kernel

end FacInfo
end Spffl
