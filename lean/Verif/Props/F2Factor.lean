/-
Properties C53, C54, C55, C58: factorization, irreducibility test, search for irreducibles and totient over F2.

`Canon f` says the word array is in canonical (trimmed) form, `toPoly f : (ZMod 2)[X]` is the polynomial it holds
and `nval p` the number whose binary digits are the coefficients of `p`.  `tm` is the value of the mask expression
that bit_vector_t's trim computes for the kernel basis (see Props/BitMatrix): theorems with
`∀ k, (tm k).Sat U fun _ => True` cover, with `U = False`, every machine on which it has some value.  No function
here throws or runs out of fuel.
-/
import Verif.Proof.F2Irr

namespace Spffl.Props
open Res Polynomial F2P

/-- a machine on which the mask expression has a value -/
theorem some_mask (m : ℕ → BitVec 64) : ∀ k, ((fun n => ok (m n) : TrimMask) k).Sat False fun _ => True := fun _ => trivial

/-- C53, the general form: the only way for `factor` not to deliver is an undefined mask. -/
theorem C53_factor {U : Prop} {tm : TrimMask} (H : ∀ k, (tm k).Sat U fun _ => True) {f : F2P} (hf : Canon f)
    (hpos : 1 ≤ (toPoly f).natDegree) (hmax : ((toPoly f).natDegree : Int) ≤ INT_MAX) :
    (factor tm f).Sat U (fun fi => fi.unit = none ∧ ∃ l : List ((ZMod 2)[X] × ℕ),
      List.Forall₂ (fun (p : F2P × Int) (q : (ZMod 2)[X] × ℕ) => Canon p.1 ∧ toPoly p.1 = q.1 ∧ p.2 = (q.2 : Int)) fi.facs l ∧
      l.Pairwise (fun p q => nval p.1 < nval q.1) ∧
      (∀ q ∈ l, Irreducible q.1 ∧ 1 ≤ q.2) ∧
      (l.map fun q => q.1 ^ q.2).prod = toPoly f) := by
  refine (factor_sat H hf hpos hmax).mono fun fi h => ?_
  obtain ⟨N, ⟨l, hl, hs, hN, hp⟩, hout⟩ := h
  refine ⟨?_, l, hl.1.imp fun p q h => ⟨h.1.1, h.1.2, h.2⟩, hs, fun q hq => ⟨hout.irr rfl _ (hN ▸ FacInfo.mem_toMs hq (hp q hq)), hp q hq⟩, ?_⟩
  · have := hl.2
    generalize fi.unit = u at this
    cases this; rfl
  · rw [← FacInfo.toMs_prod, hN, hout.prod]

/-- C53 on a machine with some mask: `factor` returns, and what it returns is the factorization. -/
theorem C53_factor_total (m : ℕ → BitVec 64) {f : F2P} (hf : Canon f)
    (hpos : 1 ≤ (toPoly f).natDegree) (hmax : ((toPoly f).natDegree : Int) ≤ INT_MAX) :
    ∃ fi, factor (fun k => ok (m k)) f = ok fi ∧ fi.unit = none ∧ ∃ l : List ((ZMod 2)[X] × ℕ),
      List.Forall₂ (fun (p : F2P × Int) (q : (ZMod 2)[X] × ℕ) => Canon p.1 ∧ toPoly p.1 = q.1 ∧ p.2 = (q.2 : Int)) fi.facs l ∧
      l.Pairwise (fun p q => nval p.1 < nval q.1) ∧
      (∀ q ∈ l, Irreducible q.1 ∧ 1 ≤ q.2) ∧
      (l.map fun q => q.1 ^ q.2).prod = toPoly f :=
  sat_false.mp (C53_factor (some_mask m) hf hpos hmax)

/-- Constants are returned as a unit with no factors. -/
theorem C53_constant (tm : TrimMask) {f : F2P} (hf : Canon f) (h0 : (toPoly f).natDegree = 0) :
    ∃ fi, factor tm f = ok fi ∧ fi.facs = [] ∧ fi.unit = some f := by
  unfold F2P.factor
  rw [find_degree_ok, ok_bind, if_pos h0]
  exact ⟨_, rfl, rfl, rfl⟩

/-- x^10+x^9+x^8+x^3+x^2+x = x (x+1) (x^2+x+1) (x^3+x+1) (x^3+x^2+1), and x^6+x^4 = x^4 (x+1)^2 -/
example : factor (fun _ => ok 5#64) [0x70e#64] =
    ok ⟨[([0x2#64], 1), ([0x3#64], 1), ([0x7#64], 1), ([0xb#64], 1), ([0xd#64], 1)], none⟩ := by decide +kernel
example : factor (fun _ => ok 5#64) [0x50#64] = ok ⟨[([0x2#64], 4), ([0x3#64], 2)], none⟩ := by decide +kernel

/-- Read literally, splitting a reducible squarefree polynomial whose degree is not a multiple of 64 runs into the
undefined shifts of trim: x^2 + x. -/
theorem C53_violated_strict : factor strictMask [0x6#64] = ub := by decide +kernel

/-- C54: the test answers whether `f` is irreducible, for polynomials of every degree. -/
theorem C54_is_irreducible {U : Prop} {tm : TrimMask} (H : ∀ k, (tm k).Sat U fun _ => True) {f : F2P} (hf : Canon f)
    (hmax : ((toPoly f).natDegree : Int) ≤ INT_MAX) :
    (is_irreducible tm f).Sat U (fun b => b = true ↔ Irreducible (toPoly f)) := is_irreducible_sat H hf hmax

theorem C54_is_irreducible_total (m : ℕ → BitVec 64) {f : F2P} (hf : Canon f) (hmax : ((toPoly f).natDegree : Int) ≤ INT_MAX) :
    ∃ b, is_irreducible (fun k => ok (m k)) f = ok b ∧ (b = true ↔ Irreducible (toPoly f)) :=
  sat_false.mp (C54_is_irreducible (some_mask m) hf hmax)

example : is_irreducible (fun _ => ok 5#64) [0x11b#64] = ok true := by decide +kernel
example : is_irreducible (fun _ => ok 5#64) [0x11d#64] = ok true := by decide +kernel
/-- (x^2+x+1)^2 -/
example : is_irreducible (fun _ => ok 5#64) [0x15#64] = ok false := by decide +kernel
example : is_irreducible (fun _ => ok 5#64) [0x1#64] = ok false := by decide +kernel

/-- C55 for degrees from 2 on: the search ends with the numerically least irreducible polynomial of the degree.
Missing: degree 1, where the claim is false (`C55_violated`). -/
theorem C55_least_partial {U : Prop} {tm : TrimMask} (H : ∀ k, (tm k).Sat U fun _ => True) {d : ℕ} (hd : 2 ≤ d) (hmax : (d : Int) ≤ INT_MAX) :
    (find_irreducible tm d).Sat U (fun r => Canon r ∧ Irreducible (toPoly r) ∧ (toPoly r).natDegree = d ∧
      ∀ p : (ZMod 2)[X], Irreducible p → p.natDegree = d → nval (toPoly r) ≤ nval p) :=
  (find_irreducible_sat H (by omega) hmax).mono fun r ⟨h1, h2, h3, _, h5⟩ =>
    ⟨h1, h2, h3, fun p hp hpd => h5 p hp hpd (coeff_zero_of_irreducible hp (by omega))⟩

theorem C55_total_partial (m : ℕ → BitVec 64) {d : ℕ} (hd : 2 ≤ d) (hmax : (d : Int) ≤ INT_MAX) :
    ∃ r, find_irreducible (fun k => ok (m k)) d = ok r ∧ Canon r ∧ Irreducible (toPoly r) ∧ (toPoly r).natDegree = d ∧
      ∀ p : (ZMod 2)[X], Irreducible p → p.natDegree = d → nval (toPoly r) ≤ nval p :=
  sat_false.mp (C55_least_partial (some_mask m) hd hmax)

/-- For every degree the result is irreducible of that degree with constant term 1, and least among those. -/
theorem C55_odd {U : Prop} {tm : TrimMask} (H : ∀ k, (tm k).Sat U fun _ => True) {d : ℕ} (hd : 1 ≤ d) (hmax : (d : Int) ≤ INT_MAX) :
    (find_irreducible tm d).Sat U (fun r => Canon r ∧ Irreducible (toPoly r) ∧ (toPoly r).natDegree = d ∧ (toPoly r).coeff 0 ≠ 0 ∧
      ∀ p : (ZMod 2)[X], Irreducible p → p.natDegree = d → p.coeff 0 ≠ 0 → nval (toPoly r) ≤ nval p) := find_irreducible_sat H hd hmax

theorem C55_nonpositive (tm : TrimMask) {d : Int} (hd : d < 1) : find_irreducible tm d = throw := find_irreducible_throw tm hd

/-- The least irreducible polynomial of degree 1 is x, but the search starts at x + 1 and returns it. -/
theorem C55_violated (tm : TrimMask) : ∃ r, find_irreducible tm 1 = ok r ∧ toPoly r = X + 1 ∧
    Irreducible (X : (ZMod 2)[X]) ∧ (X : (ZMod 2)[X]).natDegree = 1 ∧ nval X < nval (toPoly r) := by
  have hr : find_irreducible tm 1 = ok [3#64] := rfl
  have h3 : toPoly [3#64] = X + 1 := by
    ext t
    rw [coeff_toPoly, toPoly_single, coeff_add, coeff_X, coeff_one]
    by_cases ht : t < 64
    · have : ∀ t : Fin 64, (3#64).getLsbD t.1 = decide (1 = t.1 ∨ t.1 = 0) := by decide
      rw [this ⟨t, ht⟩]
      simp only [ht, decide_true, Bool.true_and, decide_eq_true_eq]
      by_cases h1 : 1 = t
      · subst h1; simp
      · by_cases h0 : t = 0 <;> simp [h1, h0]
    · have h1 : ¬ 1 = t := by omega
      have h0 : ¬ t = 0 := by omega
      simp [ht, h1, h0]
  refine ⟨_, hr, h3, irreducible_X, natDegree_X, ?_⟩
  rw [h3]
  have := nval_add_pow (p := (X : (ZMod 2)[X])) (n := 0) (by simp)
  rw [pow_zero, pow_zero] at this
  rw [this]; omega

example : find_irreducible (fun _ => ok 5#64) 8 = ok [0x11b#64] := by decide +kernel

/-- C58: the totient is the number of residues prime to `f`, if that number is below 2^31 - 1.
Missing: the value 2^31 - 1 itself, which an int can hold but which the code does not reach (`C58_violated`). -/
theorem C58_totient_partial {U : Prop} {tm : TrimMask} (H : ∀ k, (tm k).Sat U fun _ => True) {f : F2P} (hf : Canon f)
    (hpos : 1 ≤ (toPoly f).natDegree) (hmax : ((toPoly f).natDegree : Int) ≤ INT_MAX)
    (hlt : Nat.card {g : (ZMod 2)[X] // g.degree < (toPoly f).degree ∧ IsCoprime g (toPoly f)} < 2147483647) :
    (totient tm f).Sat U (fun r => r = (Nat.card {g : (ZMod 2)[X] // g.degree < (toPoly f).degree ∧ IsCoprime g (toPoly f)} : Int)) :=
  totient_sat H hf hpos hlt hmax

/-- The same number as the order of the group of units of F2[x]/(f). -/
theorem C58_units {f : (ZMod 2)[X]} (hf : f ≠ 0) :
    Nat.card (AdjoinRoot f)ˣ = Nat.card {g : (ZMod 2)[X] // g.degree < f.degree ∧ IsCoprime g f} := card_units hf

theorem C58_totient_total_partial (m : ℕ → BitVec 64) {f : F2P} (hf : Canon f)
    (hpos : 1 ≤ (toPoly f).natDegree) (hmax : ((toPoly f).natDegree : Int) ≤ INT_MAX)
    (hlt : Nat.card (AdjoinRoot (toPoly f))ˣ < 2147483647) :
    totient (fun k => ok (m k)) f = ok (Nat.card (AdjoinRoot (toPoly f))ˣ : Int) := by
  have h0 : toPoly f ≠ 0 := by intro h; rw [h] at hpos; simp at hpos
  rw [C58_units h0] at hlt ⊢
  obtain ⟨r, h1, h2⟩ := sat_false.mp (C58_totient_partial (some_mask m) hf hpos hmax hlt)
  rw [h1, h2]

example : totient (fun _ => ok 5#64) [0x70e#64] = ok 147 := by decide +kernel

/-- For every irreducible polynomial of degree 31 the totient 2^31 - 1 is representable, but `(1 << 31) - 1`
overflows before it is computed. -/
theorem C58_violated {tm : TrimMask} {f : F2P} (hf : Canon f) (hirr : Irreducible (toPoly f)) (hd : (toPoly f).natDegree = 31)
    (H : ∀ k, (tm k).Sat True fun _ => True) :
    Nat.card {g : (ZMod 2)[X] // g.degree < (toPoly f).degree ∧ IsCoprime g (toPoly f)} = 2147483647 ∧ totient tm f = ub := by
  refine ⟨?_, totient_ub H hf hirr hd⟩
  have := polyTotient_prime_pow hirr (e := 1) one_pos
  rw [pow_one, ZMod.card, hd] at this
  exact this

/-- such polynomials exist -/
theorem C58_violated_exists : ∃ f : F2P, Canon f ∧ Irreducible (toPoly f) ∧ (toPoly f).natDegree = 31 := by
  obtain ⟨p, -, h2, h3⟩ := exists_irreducible_degree (K := ZMod 2) (n := 31) (by norm_num)
  obtain ⟨f, hf, rfl⟩ := exists_canon p
  exact ⟨f, hf, h2, h3⟩

end Spffl.Props
