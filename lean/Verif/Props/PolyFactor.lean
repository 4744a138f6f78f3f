/-
Properties C56, C57, C76, C77, C78: factorization, irreducibility test, search for irreducibles, roots and totients
for polynomials over `F_p` and over `F_{2^n} = F_2[x]/(m)`.

`Fp p a f` and `F2n m a f` say that the object `a` denotes the polynomial `f` (Props/CPoly.lean).  Primes go up to
46341 (products of residues fit an `int`) and `m` up to degree 30 (`1 << degree` fits an `int`); larger `m` are
covered by `C57_violated_31` and `C57_violated_32`.  `polyKey q kv f` is the number whose base-`q` digits are the
coefficients of `f`, each coefficient read as a number by `kv`: its least residue for `F_p`; for `F_{2^n}` the binary
number of its least residue.  Every claim includes that the function returns normally.
-/
import Verif.Proof.FpFactor
import Verif.Proof.F2nFactor
import Verif.Props.CPoly
import Verif.Props.F2Factor

namespace Spffl.Props
open Res Polynomial CPoly CP

/-- the value of a polynomial over `F_p` as a base-`p` number -/
noncomputable abbrev fpKey (p : ℕ) (f : (ZMod p)[X]) : ℕ := polyKey p ZMod.val f
/-- the value of a polynomial over `F_2[x]/(m)` as a base-`2^deg m` number -/
noncomputable abbrev f2nKey (m : (ZMod 2)[X]) (f : (AdjoinRoot m)[X]) : ℕ := polyKey (2 ^ m.natDegree) (F2nP.kv m) f

theorem finite_adjoin (m : (ZMod 2)[X]) [Fact (Irreducible m)] : Finite (AdjoinRoot m) :=
  haveI := (AdjoinRoot.powerBasis (Fact.out (p := Irreducible m)).ne_zero).finite
  Module.finite_of_finite (ZMod 2)

variable {p : ℕ} [Fact p.Prime] {m : (ZMod 2)[X]} [Fact (Irreducible m)]

/-- C56: the factors are monic irreducible, strictly increasing, with positive multiplicities; their product times
the unit is `f`.  No unit is stored when `f` is monic. -/
theorem C56_factor (hp : p ≤ 46341) {a : CPoly IntMod} {f : (ZMod p)[X]} (ha : Fp p a f) (hpos : 1 ≤ f.natDegree)
    (hmax : (f.natDegree : Int) ≤ INT_MAX) :
    (FpP.factor a).Ok (fun fi => ∃ l : List ((ZMod p)[X] × ℕ),
      List.Forall₂ (fun (x : CPoly IntMod × Int) (y : (ZMod p)[X] × ℕ) => Fp p x.1 y.1 ∧ x.2 = (y.2 : Int)) fi.facs l ∧
      l.Pairwise (fun x y => fpKey p x.1 < fpKey p y.1) ∧
      (∀ y ∈ l, Irreducible y.1 ∧ y.1.Monic ∧ 1 ≤ y.2) ∧
      C f.leadingCoeff * (l.map fun y => y.1 ^ y.2).prod = f ∧
      ((f.leadingCoeff = 1 ∧ fi.unit = none) ∨
        (f.leadingCoeff ≠ 1 ∧ ∃ b, fi.unit = some b ∧ Fp p b (C f.leadingCoeff)))) := by
  refine sat_false.mp ((CFac.factor_sat (FpP.fref hp) ha hpos hmax).mono fun fi h => ?_)
  obtain ⟨N, u, h1, h2, h3⟩ := h
  obtain ⟨l, g1, g2, g3, g4, g5⟩ := CFac.list_of_facs h1 h2
  refine ⟨l, g1, by simpa [ZMod.card] using g3, g4, ?_, ?_⟩
  · have hf0 : f.leadingCoeff ≠ 0 := by rw [ne_eq, leadingCoeff_eq_zero]; rintro rfl; simp at hpos
    rw [g5, mul_comm, mul_assoc, ← C_mul, inv_mul_cancel₀ hf0, C_1, mul_one]
  · rcases h3 with ⟨k1, rfl⟩ | ⟨k1, rfl⟩
    · generalize fi.unit = u at g2
      cases g2; exact Or.inl ⟨k1, rfl⟩
    · generalize fi.unit = u at g2
      cases g2 with
      | some h => exact Or.inr ⟨k1, _, rfl, h⟩

/-- Constants are returned as a unit with no factors. -/
theorem C56_constant (hp : p ≤ 46341) {a : CPoly IntMod} {f : (ZMod p)[X]} (ha : Fp p a f) (h0 : f.natDegree = 0) :
    (FpP.factor a).Ok (fun fi => fi.facs = [] ∧ ∃ b, fi.unit = some b ∧ Fp p b f) :=
  sat_false.mp (CFac.factor_const (FpP.fref hp) ha h0)

/-- polynomial over `F_p` from the residues of its coefficients, lowest first -/
def fpOf (p : Int) (l : List Int) : CPoly IntMod := ⟨l.length - 1, l.map fun c => ⟨c, p⟩⟩
/-- polynomial over `F_2[x]/(m)` from the residues of its coefficients, lowest first -/
def f2nOf (m : BitVec 64) (l : List (BitVec 64)) : CPoly F2Mod := ⟨l.length - 1, l.map fun c => ⟨[c], [m]⟩⟩

/-- 3x^6+x^5+2x^4+1 = 3 (x+1) (x^2+x+2) (x^3+x+1) over F_5, and 2x^10 + 2x^5 = 2 x^5 (x+1)^5 -/
example : FpP.factor (fpOf 5 [1, 0, 0, 0, 2, 1, 3]) =
    ok ⟨[(fpOf 5 [1, 1], 1), (fpOf 5 [2, 1, 1], 1), (fpOf 5 [1, 1, 0, 1], 1)], some (fpOf 5 [3])⟩ := by decide +kernel
example : (do let fi ← FpP.factor (fpOf 5 [0, 0, 0, 0, 0, 2, 0, 0, 0, 0, 2]); ok (fi.facs.map fun x => (x.1.degree, x.2))) =
    ok [(1, 5), (1, 5)] := by decide +kernel

/-- C57: the same over `F_2[x]/(m)`, for irreducible `m` up to degree 30.
Missing: degree 31 and above, where the claim is false (`C57_violated_31`, `C57_violated_32`). -/
theorem C57_factor_partial (hm : m.natDegree ≤ 30) {a : CPoly F2Mod} {f : (AdjoinRoot m)[X]} (ha : F2n m a f) (hpos : 1 ≤ f.natDegree)
    (hmax : (f.natDegree : Int) ≤ INT_MAX) :
    (F2nP.factor a).Ok (fun fi => ∃ l : List ((AdjoinRoot m)[X] × ℕ),
      List.Forall₂ (fun (x : CPoly F2Mod × Int) (y : (AdjoinRoot m)[X] × ℕ) => F2n m x.1 y.1 ∧ x.2 = (y.2 : Int)) fi.facs l ∧
      l.Pairwise (fun x y => f2nKey m x.1 < f2nKey m y.1) ∧
      (∀ y ∈ l, Irreducible y.1 ∧ y.1.Monic ∧ 1 ≤ y.2) ∧
      C f.leadingCoeff * (l.map fun y => y.1 ^ y.2).prod = f ∧
      ((f.leadingCoeff = 1 ∧ fi.unit = none) ∨
        (f.leadingCoeff ≠ 1 ∧ ∃ b, fi.unit = some b ∧ F2n m b (C f.leadingCoeff)))) := by
  haveI := finite_adjoin m
  letI := Fintype.ofFinite (AdjoinRoot m)
  refine sat_false.mp ((CFac.factor_sat (F2nP.fref hm) ha hpos hmax).mono fun fi h => ?_)
  obtain ⟨N, u, h1, h2, h3⟩ := h
  obtain ⟨l, g1, g2, g3, g4, g5⟩ := CFac.list_of_facs h1 h2
  rw [F2nP.card_eq] at g3
  refine ⟨l, g1, g3, g4, ?_, ?_⟩
  · have hf0 : f.leadingCoeff ≠ 0 := by rw [ne_eq, leadingCoeff_eq_zero]; rintro rfl; simp at hpos
    rw [g5, mul_comm, mul_assoc, ← C_mul, inv_mul_cancel₀ hf0, C_1, mul_one]
  · rcases h3 with ⟨k1, rfl⟩ | ⟨k1, rfl⟩
    · generalize fi.unit = u at g2
      cases g2; exact Or.inl ⟨k1, rfl⟩
    · generalize fi.unit = u at g2
      cases g2 with
      | some h => exact Or.inr ⟨k1, _, rfl, h⟩

theorem C57_constant_partial (hm : m.natDegree ≤ 30) {a : CPoly F2Mod} {f : (AdjoinRoot m)[X]} (ha : F2n m a f) (h0 : f.natDegree = 0) :
    (F2nP.factor a).Ok (fun fi => fi.facs = [] ∧ ∃ b, fi.unit = some b ∧ F2n m b f) := by
  haveI := finite_adjoin m
  letI := Fintype.ofFinite (AdjoinRoot m)
  exact sat_false.mp (CFac.factor_const (F2nP.fref hm) ha h0)

/-- over F_4 with θ = 2: (θ+1) x^5 + x^4 + θ x^3 + 1 -/
example : F2nP.factor (f2nOf 7 [1, 0, 0, 2, 1, 3]) =
    ok ⟨[(f2nOf 7 [1, 3, 1], 1), (f2nOf 7 [2, 1, 1, 1], 1)], some (f2nOf 7 [3])⟩ := by decide +kernel

theorem irreducible_of_word (w : BitVec 64) (hd : (F2P.toPoly [w]).natDegree ≤ 63)
    (h : F2P.is_irreducible (fun _ => ok 5#64) [w] = ok true) : Irreducible (F2P.toPoly [w]) := by
  obtain ⟨b, h1, h2⟩ := C54_is_irreducible_total (fun _ => 5#64) (f := [w]) (F2P.canon_single w) (by
    have : INT_MAX = 2147483647 := rfl
    omega)
  rw [h] at h1
  injection h1 with h1
  exact h2.mp h1.symm

theorem natDegree_single (w : BitVec 64) : (F2P.toPoly [w]).natDegree ≤ 63 := by
  rw [natDegree_le_iff_coeff_eq_zero]
  intro n hn
  rw [F2P.coeff_toPoly, F2P.toPoly_single]
  simp
  omega

/-- Over F_{2^31}, given by the irreducible x^31+x^3+1, `1 << 31` is negative; the search for a splitting constant
is empty and factoring x^2 + x throws. -/
theorem C57_violated_31 : Irreducible (F2P.toPoly [0x80000009#64]) ∧
    F2nP.factor (f2nOf 0x80000009 [0, 1, 1]) = throw :=
  ⟨irreducible_of_word _ (natDegree_single _) (by decide +kernel), by decide +kernel⟩

/-- Over F_{2^32} the shift itself is undefined. -/
theorem C57_violated_32 : Irreducible (F2P.toPoly [0x100400007#64]) ∧
    F2nP.factor (f2nOf 0x100400007 [0, 1, 1]) = ub :=
  ⟨irreducible_of_word _ (natDegree_single _) (by decide +kernel), by decide +kernel⟩

/-- C76, the test: it answers whether `f` is irreducible, for polynomials of every degree. -/
theorem C76_fp_is_irreducible (hp : p ≤ 46341) {a : CPoly IntMod} {f : (ZMod p)[X]} (ha : Fp p a f) (hmax : (f.natDegree : Int) ≤ INT_MAX) :
    (FpP.is_irreducible a).Ok (fun b => b = true ↔ Irreducible f) := sat_false.mp (CFac.is_irreducible_sat (FpP.fref hp) ha hmax)

theorem C76_f2n_is_irreducible (hm : m.natDegree ≤ 30) {a : CPoly F2Mod} {f : (AdjoinRoot m)[X]} (ha : F2n m a f)
    (hmax : (f.natDegree : Int) ≤ INT_MAX) : (F2nP.is_irreducible a).Ok (fun b => b = true ↔ Irreducible f) := by
  haveI := finite_adjoin m
  letI := Fintype.ofFinite (AdjoinRoot m)
  exact sat_false.mp (CFac.is_irreducible_sat (F2nP.fref hm) ha hmax)

example : FpP.is_irreducible (fpOf 5 [1, 1, 0, 1]) = ok true := by decide +kernel
example : FpP.is_irreducible (fpOf 5 [1, 0, 0, 1]) = ok false := by decide +kernel
example : F2nP.is_irreducible (f2nOf 7 [2, 1, 1]) = ok true := by decide +kernel
example : F2nP.is_irreducible (f2nOf 7 [1, 1, 1]) = ok false := by decide +kernel

/-- C76, the search over `F_p`, for degrees from 2 on: the least irreducible polynomial of the degree, which is monic.
Missing: degree 1, where the claim is false (`C76_violated`). -/
theorem C76_fp_least_partial (hp : p ≤ 46341) {d : ℕ} (hd : 2 ≤ d) (hmax : (d : Int) ≤ INT_MAX) :
    (FpP.find_irr p d).Ok (fun r => ∃ f, Fp p r f ∧ f.Monic ∧ Irreducible f ∧ f.natDegree = d ∧
      ∀ g : (ZMod p)[X], Irreducible g → g.natDegree = d → fpKey p f ≤ fpKey p g) := by
  unfold FpP.find_irr
  refine sat_false.mp ((FpP.mk0 hp).bind fun zero hz => (FpP.mk1 hp).bind fun one h1 => ?_)
  have := CFac.find_irr_sat (FpP.fref hp) hz h1 (d := d) (by omega) hmax
  rw [ZMod.card] at this
  exact this.mono fun r ⟨f, a1, a2, a3, a4, _, a6⟩ => ⟨f, a1, a2, a3, a4, fun g h1 h2 => a6 g h1 h2 (CFac.coeff_zero_of_irreducible h1 (by omega))⟩

theorem C76_fp_any (hp : p ≤ 46341) {d : ℕ} (hd : 1 ≤ d) (hmax : (d : Int) ≤ INT_MAX) :
    (FpP.find_irr p d).Ok (fun r => ∃ f, Fp p r f ∧ f.Monic ∧ Irreducible f ∧ f.natDegree = d ∧ f.coeff 0 ≠ 0 ∧
      ∀ g : (ZMod p)[X], Irreducible g → g.natDegree = d → g.coeff 0 ≠ 0 → fpKey p f ≤ fpKey p g) := by
  unfold FpP.find_irr
  refine sat_false.mp ((FpP.mk0 hp).bind fun zero hz => (FpP.mk1 hp).bind fun one h1 => ?_)
  have := CFac.find_irr_sat (FpP.fref hp) hz h1 (d := d) hd hmax
  rwa [ZMod.card] at this

theorem C76_f2n_least_partial (hm : m.natDegree ≤ 30) {mm : F2P} (hc : F2P.Canon mm) (ht : F2P.toPoly mm = m) {d : ℕ} (hd : 2 ≤ d)
    (hmax : (d : Int) ≤ INT_MAX) :
    (F2nP.find_irr mm d).Ok (fun r => ∃ f, F2n m r f ∧ f.Monic ∧ Irreducible f ∧ f.natDegree = d ∧
      ∀ g : (AdjoinRoot m)[X], Irreducible g → g.natDegree = d → f2nKey m f ≤ f2nKey m g) := by
  haveI := finite_adjoin m
  letI := Fintype.ofFinite (AdjoinRoot m)
  unfold F2nP.find_irr
  refine sat_false.mp ((F2nP.mk0 hc ht).bind fun zero hz => (F2nP.mk1 hc ht).bind fun one h1 => ?_)
  rw [F2P.find_degree_ok, ok_bind, ht]
  have := CFac.find_irr_sat (F2nP.fref hm) hz h1 (d := d) (by omega) hmax
  rw [F2nP.card_eq] at this
  exact this.mono fun r ⟨f, a1, a2, a3, a4, _, a6⟩ => ⟨f, a1, a2, a3, a4, fun g h1 h2 => a6 g h1 h2 (CFac.coeff_zero_of_irreducible h1 (by omega))⟩

theorem C76_f2n_any (hm : m.natDegree ≤ 30) {mm : F2P} (hc : F2P.Canon mm) (ht : F2P.toPoly mm = m) {d : ℕ} (hd : 1 ≤ d)
    (hmax : (d : Int) ≤ INT_MAX) :
    (F2nP.find_irr mm d).Ok (fun r => ∃ f, F2n m r f ∧ f.Monic ∧ Irreducible f ∧ f.natDegree = d ∧ f.coeff 0 ≠ 0 ∧
      ∀ g : (AdjoinRoot m)[X], Irreducible g → g.natDegree = d → g.coeff 0 ≠ 0 → f2nKey m f ≤ f2nKey m g) := by
  haveI := finite_adjoin m
  letI := Fintype.ofFinite (AdjoinRoot m)
  unfold F2nP.find_irr
  refine sat_false.mp ((F2nP.mk0 hc ht).bind fun zero hz => (F2nP.mk1 hc ht).bind fun one h1 => ?_)
  rw [F2P.find_degree_ok, ok_bind, ht]
  have := CFac.find_irr_sat (F2nP.fref hm) hz h1 (d := d) hd hmax
  rwa [F2nP.card_eq] at this

/-- degrees below 1 are refused -/
theorem C76_nonpositive (hp : p ≤ 46341) {d : Int} (hd : d < 1) : FpP.find_irr p d = throw := by
  unfold FpP.find_irr
  obtain ⟨z, e0, hz⟩ := sat_false.mp (FpP.mk0 hp)
  obtain ⟨o, e1, h1⟩ := sat_false.mp (FpP.mk1 hp)
  rw [e0, ok_bind, e1, ok_bind]
  exact CFac.find_irr_throw (FpP.fref hp) hz h1 _ hd

example : FpP.find_irr 5 3 = ok (fpOf 5 [1, 1, 0, 1]) := by decide +kernel
example : F2nP.find_irr [7] 2 = ok (f2nOf 7 [2, 1, 1]) := by decide +kernel

/-- For every prime, the least irreducible polynomial of degree 1 is x, but the search never returns it. -/
theorem C76_violated (hp : p ≤ 46341) : (FpP.find_irr p 1).Ok (fun r => ∃ f, Fp p r f ∧
    Irreducible (X : (ZMod p)[X]) ∧ (X : (ZMod p)[X]).natDegree = 1 ∧ fpKey p X < fpKey p f) := by
  refine (C76_fp_any hp (d := 1) le_rfl (by decide)).mono fun r ⟨f, a1, a2, a3, a4, a5, _⟩ => ⟨f, a1, irreducible_X, natDegree_X, ?_⟩
  have hD := FpP.digits (p := p)
  rw [ZMod.card] at hD
  refine lt_of_le_of_ne ?_ fun h => a5 (by rw [← hD.key_inj h, coeff_X_zero])
  have h1 : (1 : ZMod p).val = 1 := ZMod.val_one p
  have := hD.key_X_pow h1 1
  rw [pow_one, pow_one] at this
  refine this.le.trans ?_
  have := hD.le_key a3.ne_zero
  rwa [a4, pow_one] at this

/-- C77: the roots of a non-zero polynomial over `F_{2^n}`, each once; the function says "no roots" exactly when
there are none. -/
theorem C77_roots (hm : m.natDegree ≤ 30) {a : CPoly F2Mod} {f : (AdjoinRoot m)[X]} (ha : F2n m a f) (hf : f ≠ 0)
    (hmax : (f.natDegree : Int) ≤ INT_MAX) :
    (F2nP.roots a).Ok (fun r => ∃ ys : List (AdjoinRoot m), ys.Nodup ∧ (∀ y, y ∈ ys ↔ f.eval y = 0) ∧
      match r with
      | none => ys = []
      | some rs => ys ≠ [] ∧ List.Forall₂ (F2Mod.Rep m) rs ys) := by
  haveI := finite_adjoin m
  letI := Fintype.ofFinite (AdjoinRoot m)
  refine sat_false.mp ((CFac.roots_sat (F2nP.fref hm) ha hf hmax).mono fun r h => ?_)
  obtain ⟨ys, h1, h2, h3⟩ := h
  refine ⟨ys, h1, h2, ?_⟩
  cases r <;> exact h3

/-- x^4 + x has all four elements of F_4 as roots; x^2 + x + θ has none -/
example : F2nP.roots (f2nOf 7 [0, 1, 0, 0, 1]) = ok (some [⟨[0], [7]⟩, ⟨[1], [7]⟩, ⟨[2], [7]⟩, ⟨[3], [7]⟩]) := by decide +kernel
example : F2nP.roots (f2nOf 7 [2, 1, 1]) = ok none := by decide +kernel

/-- The zero polynomial, of which every element is a root, is reported to have none. -/
theorem C77_violated_zero : F2nP.roots (f2nOf 7 [0]) = ok none := by decide +kernel

/-- C78 over `F_p`: the totient is the number of residues prime to `f`, provided the square of the number of
residues fits an `int`.  `C78_fp_exact_partial` has the weaker hypothesis on the individual factors.
Missing: representable totients that the code does not reach (`C78_violated_fp`). -/
theorem C78_fp_totient_partial (hp : p ≤ 46341) {a : CPoly IntMod} {f : (ZMod p)[X]} (ha : Fp p a f) (hpos : 1 ≤ f.natDegree)
    (hmax : (f.natDegree : Int) ≤ INT_MAX) (hsz : p ^ (2 * f.natDegree) ≤ 2147483647) :
    FpP.totient a = ok (Nat.card {g : (ZMod p)[X] // g.degree < f.degree ∧ IsCoprime g f} : Int) := by
  have hf : f ≠ 0 := by rintro rfl; simp at hpos
  have hc : Fintype.card (ZMod p) ^ (2 * f.natDegree) ≤ 2147483647 := by rwa [ZMod.card]
  obtain ⟨r, h1, h2⟩ := sat_false.mp (CFac.totient_sat (FpP.fref hp) ha hpos hmax (CFac.totOk_of_sq hf hc) (CFac.totient_le hf hc))
  rw [h2] at h1; exact h1

/-- The same number as the order of the group of units of the residue ring. -/
theorem C78_units {f : (ZMod p)[X]} (hf : f ≠ 0) :
    Nat.card (AdjoinRoot f)ˣ = Nat.card {g : (ZMod p)[X] // g.degree < f.degree ∧ IsCoprime g f} := card_units hf

theorem C78_fp_exact_partial (hp : p ≤ 46341) {a : CPoly IntMod} {f : (ZMod p)[X]} (ha : Fp p a f) (hpos : 1 ≤ f.natDegree)
    (hmax : (f.natDegree : Int) ≤ INT_MAX)
    (hfac : ∀ (g : (ZMod p)[X]) (e : ℕ), Irreducible g → g ^ (e + 1) ∣ f → ¬ g ^ (e + 2) ∣ f →
      (g.natDegree * e = 0 ∨ p ^ (2 ^ (Nat.log 2 (g.natDegree * e) + 1)) ≤ 2147483647) ∧ p ^ (2 ^ (Nat.log 2 g.natDegree + 1)) ≤ 2147483647)
    (hlt : Nat.card {g : (ZMod p)[X] // g.degree < f.degree ∧ IsCoprime g f} ≤ 2147483647) :
    FpP.totient a = ok (Nat.card {g : (ZMod p)[X] // g.degree < f.degree ∧ IsCoprime g f} : Int) := by
  obtain ⟨r, h1, h2⟩ := sat_false.mp (CFac.totient_sat (FpP.fref hp) ha hpos hmax (fun g e a b c => by
    have := hfac g e a b c
    unfold PowOk
    rw [ZMod.card]
    exact ⟨this.1, Or.inr this.2⟩) hlt)
  rw [h2] at h1; exact h1

theorem C78_f2n_totient_partial (hm : m.natDegree ≤ 30) {a : CPoly F2Mod} {f : (AdjoinRoot m)[X]} (ha : F2n m a f) (hpos : 1 ≤ f.natDegree)
    (hmax : (f.natDegree : Int) ≤ INT_MAX) (hsz : 2 ^ (2 * m.natDegree * f.natDegree) ≤ 2147483647) :
    F2nP.totient a = ok (Nat.card {g : (AdjoinRoot m)[X] // g.degree < f.degree ∧ IsCoprime g f} : Int) := by
  haveI := finite_adjoin m
  letI := Fintype.ofFinite (AdjoinRoot m)
  have hf : f ≠ 0 := by rintro rfl; simp at hpos
  have hc : Fintype.card (AdjoinRoot m) ^ (2 * f.natDegree) ≤ 2147483647 := by
    rw [F2nP.card_eq, ← pow_mul, show m.natDegree * (2 * f.natDegree) = 2 * m.natDegree * f.natDegree by ring]; exact hsz
  obtain ⟨r, h1, h2⟩ := sat_false.mp (CFac.totient_sat (F2nP.fref hm) ha hpos hmax (CFac.totOk_of_sq hf hc) (CFac.totient_le hf hc))
  rw [h2] at h1; exact h1

example : FpP.totient (fpOf 5 [1, 0, 0, 0, 2, 1, 3]) = ok 11904 := by decide +kernel
example : F2nP.totient (f2nOf 7 [0, 1, 0, 0, 1]) = ok 81 := by decide +kernel

/-- For every prime above 215 and every irreducible quadratic the totient `p^2 - 1` is representable (if `p ≤ 46340`),
but `int_power` squares once more than needed and overflows. -/
theorem C78_violated_fp (hp1 : 216 ≤ p) (hp : p ≤ 46340) {a : CPoly IntMod} {f : (ZMod p)[X]} (ha : Fp p a f) (hirr : Irreducible f)
    (hd : f.natDegree = 2) :
    Nat.card {g : (ZMod p)[X] // g.degree < f.degree ∧ IsCoprime g f} = p ^ 2 - 1 ∧ p ^ 2 - 1 ≤ 2147483647 ∧ FpP.totient a = ub := by
  have hsq : p ^ 2 ≤ 46340 ^ 2 := Nat.pow_le_pow_left hp 2
  refine ⟨?_, by omega, CFac.totient_ub (FpP.fref (by omega)) ha hirr (by rw [hd]; decide) ?_⟩
  · have := polyTotient_prime_pow hirr (e := 1) one_pos
    rw [pow_one, ZMod.card, hd] at this
    simpa [polyTotient] using this
  · unfold PowOk
    rw [hd, ZMod.card, show Nat.log 2 2 = 1 by rw [Nat.log_eq_iff (by norm_num)]; norm_num]
    have : 216 ^ 4 ≤ p ^ 4 := Nat.pow_le_pow_left hp1 4
    norm_num at this ⊢
    omega

/-- Over a field of 2^16 to 2^30 elements the totient of every linear polynomial overflows the same way. -/
theorem C78_violated_f2n (hm1 : 16 ≤ m.natDegree) (hm : m.natDegree ≤ 30) {a : CPoly F2Mod} {f : (AdjoinRoot m)[X]} (ha : F2n m a f)
    (hd : f.natDegree = 1) :
    Nat.card {g : (AdjoinRoot m)[X] // g.degree < f.degree ∧ IsCoprime g f} = 2 ^ m.natDegree - 1 ∧ F2nP.totient a = ub := by
  haveI := finite_adjoin m
  letI := Fintype.ofFinite (AdjoinRoot m)
  have hirr : Irreducible f := irreducible_of_degree_eq_one (by rw [degree_eq_natDegree (by rintro rfl; simp at hd), hd]; rfl)
  refine ⟨?_, CFac.totient_ub (F2nP.fref hm) ha hirr (by rw [hd]; decide) ?_⟩
  · have := polyTotient_prime_pow hirr (e := 1) one_pos
    rw [pow_one, F2nP.card_eq, hd] at this
    simpa [polyTotient] using this
  · unfold PowOk
    rw [hd, F2nP.card_eq, show Nat.log 2 1 = 0 from Nat.log_one_right 2]
    have h1 : 2 ^ 16 ≤ 2 ^ m.natDegree := Nat.pow_le_pow_right (by norm_num) hm1
    have h2 : (2 ^ 16) ^ 2 ≤ (2 ^ m.natDegree) ^ 2 := Nat.pow_le_pow_left h1 2
    norm_num at h2 ⊢
    omega

end Spffl.Props
