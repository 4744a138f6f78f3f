/-
Properties C70 and C88: listings of elements, affine and projective space.

`Listing rep lt r S` says that the vector `r` contains exactly one object for each element that satisfies `S`, and no
other object, in ascending order of `lt`.  For polynomials and residues of polynomials `lt a b` is: the library's
`a < b` returns true.  `tm` is the mask expression in `trim` of bit vectors (Props/BitMatrix.lean), `d` the value of default
constructed elements: the results do not depend on either.  The hypotheses `n = 0 ∨ q ^ (2 ^ (Nat.log 2 n + 1)) ≤ 2147483647`
say that `int_power(q, n)` does not overflow; it squares the base once more than needed.
-/
import Verif.Proof.Lists5
import Verif.Props.PolyFactor
import Verif.Props.F2Factor

namespace Spffl.Props
open Res Polynomial CPoly CP F2P Lists

def Listing {α R : Type} (rep : α → R → Prop) (lt : α → α → Prop) (r : List α) (S : R → Prop) : Prop :=
  (∃ L : List R, List.Forall₂ rep r L ∧ L.Nodup ∧ ∀ x, x ∈ L ↔ S x) ∧ r.Pairwise lt

variable {V : Prop} {p : ℕ} [Fact p.Prime]

/-! ### Z/m -/

/-- C70, integers: all residues, for every modulus that fits an `int`. -/
theorem C70_int_all {m : ℕ} (hm : 0 < m) (hm' : m ≤ 2147483647) :
    (intmod_list m .all).Ok fun r => Listing (IntMod.Rep m) (fun a b => a.residue < b.residue) r (fun _ => True) := int_all_ok hm hm'
theorem C70_int_units {m : ℕ} (hm : 2 ≤ m) (hm' : m ≤ 2147483647) :
    (intmod_list m .units).Ok fun r => Listing (IntMod.Rep m) (fun a b => a.residue < b.residue) r IsUnit := int_units_ok hm hm'
theorem C70_int_non_units {m : ℕ} (hm : 2 ≤ m) (hm' : m ≤ 2147483647) :
    (intmod_list m .non_units).Ok fun r => Listing (IntMod.Rep m) (fun a b => a.residue < b.residue) r (fun x => ¬ IsUnit x) :=
  int_nonunits_ok hm hm'

/-- The multiples of a residue `x`: those that `x` divides in Z/m. -/
theorem C70_int_multiples {m : ℕ} {g : IntMod} {x : ZMod m} (hg : IntMod.Rep m g x) (hm' : m ≤ 2147483647) :
    (intmod_glist g .multiples).Ok fun r => Listing (IntMod.Rep m) (fun a b => a.residue < b.residue) r (fun y => x ∣ y) :=
  int_multiples_ok hg hm'
/-- The residues relatively prime to `x`: those that generate the unit ideal together with `x`. -/
theorem C70_int_rel_prime {m : ℕ} {g : IntMod} {x : ZMod m} (hg : IntMod.Rep m g x) (hm' : m ≤ 2147483647) :
    (intmod_glist g .rel_prime).Ok fun r => Listing (IntMod.Rep m) (fun a b => a.residue < b.residue) r (fun y => IsCoprime y x) :=
  int_relprime_ok hg hm'

/-- Other selections are refused, whatever the modulus. -/
theorem C70_int_other (m : Int) : intmod_list m .multiples = throw ∧ intmod_list m .rel_prime = throw := ⟨rfl, rfl⟩

/-- Modulo 1 the only residue is a unit: the list of units is refused, and the list of non-units, which is empty, has one
element that was never assigned. -/
theorem C70_violated_one : intmod_list 1 .units = throw ∧ intmod_list 1 .non_units = ok [IntMod.cops.dflt] ∧ IsUnit (0 : ZMod 1) :=
  ⟨rfl, rfl, isUnit_of_subsingleton 0⟩

example : intmod_list 6 .units = ok [⟨1, 6⟩, ⟨5, 6⟩] ∧ intmod_list 6 .non_units = ok [⟨0, 6⟩, ⟨2, 6⟩, ⟨3, 6⟩, ⟨4, 6⟩] ∧
    intmod_glist ⟨4, 6⟩ .multiples = ok [⟨0, 6⟩, ⟨2, 6⟩, ⟨4, 6⟩] ∧ intmod_glist ⟨4, 6⟩ .rel_prime = ok [⟨1, 6⟩, ⟨3, 6⟩, ⟨5, 6⟩] := by
  decide +kernel

/-! ### polynomials over F2 and their residues -/

/-- C70, F2: all polynomials of a degree.  Missing: degree 31 and more (`C70_violated_31`). -/
theorem C70_f2_poly_partial {n : ℕ} (hn : n ≤ 30) :
    (f2_poly_list n).Ok fun r => Listing (fun a f => Canon a ∧ toPoly a = f) (fun a b => F2P.lt a b = ok true) r
      (fun f => f ≠ 0 ∧ f.natDegree = n) := f2_poly_list_ok hn

variable {m : (ZMod 2)[X]} {a : F2P} {tm : TrimMask}

/-- all residues modulo a non-zero polynomial, irreducible or not -/
theorem C70_f2_all_partial (hc : Canon a) (ha : toPoly a = m) (h0 : m ≠ 0) (hd : m.natDegree ≤ 30) :
    (f2_polymod_list tm a .all).Ok fun r => Listing (F2Mod.Rep m) (fun a b => F2Mod.lt a b = ok true) r (fun _ => True) :=
  f2_all_ok hc ha h0 hd

/-- the units modulo any non-zero polynomial with fewer than 2^31 - 1 of them -/
theorem C70_f2_units_partial (H : ∀ k, (tm k).Sat V fun _ => True) (hc : Canon a) (ha : toPoly a = m) (h0 : m ≠ 0)
    (hmax : (m.natDegree : Int) ≤ INT_MAX) (hlt : Nat.card (AdjoinRoot m)ˣ < 2147483647) :
    (f2_polymod_list tm a .units).Sat V fun r => Listing (F2Mod.Rep m) (fun a b => F2Mod.lt a b = ok true) r IsUnit :=
  f2_units_sat H hc ha h0 hmax hlt

theorem C70_f2_non_units_partial (H : ∀ k, (tm k).Sat V fun _ => True) (hc : Canon a) (ha : toPoly a = m) (hpos : 0 < m.natDegree)
    (hd : m.natDegree ≤ 30) :
    (f2_polymod_list tm a .non_units).Sat V fun r => Listing (F2Mod.Rep m) (fun a b => F2Mod.lt a b = ok true) r (fun x => ¬ IsUnit x) :=
  f2_nonunits_sat H hc ha hpos hd

theorem C70_f2_multiples_partial {g : F2Mod} {x : AdjoinRoot m} (hg : F2Mod.Rep m g x) (hd : m.natDegree ≤ 30) :
    (f2_polymod_glist g .multiples).Ok fun r => Listing (F2Mod.Rep m) (fun a b => F2Mod.lt a b = ok true) r (fun y => x ∣ y) :=
  f2_multiples_ok hg hd
theorem C70_f2_rel_prime_partial {g : F2Mod} {x : AdjoinRoot m} (hg : F2Mod.Rep m g x) (hd : m.natDegree ≤ 30) :
    (f2_polymod_glist g .rel_prime).Ok fun r => Listing (F2Mod.Rep m) (fun a b => F2Mod.lt a b = ok true) r (fun y => IsCoprime y x) :=
  f2_relprime_ok hg hd

/-- Degree 31 is refused, higher degrees shift beyond the width of an `int`. -/
theorem C70_violated_31 : f2_poly_list 31 = throw ∧ ∀ n : ℕ, 32 ≤ n → f2_poly_list n = ub := by
  refine ⟨rfl, fun n hn => ?_⟩
  unfold f2_poly_list ishl
  rw [if_neg (by omega), ub_bind]

theorem C70_violated_all_31 (hd : 31 ≤ (toPoly a).natDegree) :
    f2_polymod_list tm a .all = if (toPoly a).natDegree = 31 then throw else ub := by
  unfold f2_polymod_list
  rw [find_degree_ok, ok_bind]
  dsimp only
  split
  · rename_i h; rw [h]; rfl
  · unfold ishl
    rw [if_neg (by omega), ub_bind]

/-- Modulo 1 there is one residue, a unit; the empty list of non-units is refused. -/
example : f2_polymod_list (fun _ => ok 5#64) [1] .units = ok [⟨[0], [1]⟩] ∧ f2_polymod_list (fun _ => ok 5#64) [1] .non_units = throw := by
  decide +kernel
example : f2_poly_list 2 = ok [[4], [5], [6], [7]] ∧
    f2_polymod_list (fun _ => ok 5#64) [5] .units = ok [⟨[1], [5]⟩, ⟨[2], [5]⟩] ∧
    f2_polymod_list (fun _ => ok 5#64) [5] .non_units = ok [⟨[0], [5]⟩, ⟨[3], [5]⟩] ∧
    f2_polymod_glist ⟨[3], [9]⟩ .multiples = ok [⟨[0], [9]⟩, ⟨[3], [9]⟩, ⟨[5], [9]⟩, ⟨[6], [9]⟩] := by decide +kernel

/-! ### polynomials over Fp and their residues -/

/-- C70, Fp: all polynomials of a degree, monic or not.  Missing: numbers of polynomials beyond an `int`, and powers that
overflow on the way (`C70_violated_fp_power`). -/
theorem C70_fp_poly_partial (h : p ≤ 46341) {n : ℕ} (hn : n < 2147483647) (hpow : n = 0 ∨ p ^ (2 ^ (Nat.log 2 n + 1)) ≤ 2147483647)
    (hnel : (p - 1) * p ^ n ≤ 2147483647) :
    (fp_poly_list p n).Ok fun r => Listing (Fp p) (fun a b => CPoly.lt IntMod.cops a b = ok true) r (fun f => f ≠ 0 ∧ f.natDegree = n) :=
  fp_poly_list_ok h hn hpow hnel

/-- The header says "Monics only".  For odd `p` the list holds polynomials that are not. -/
theorem C70_violated_monic (h3 : 3 ≤ p) (h : p ≤ 46341) {n : ℕ} (hn : n < 2147483647)
    (hpow : n = 0 ∨ p ^ (2 ^ (Nat.log 2 n + 1)) ≤ 2147483647) (hnel : (p - 1) * p ^ n ≤ 2147483647) :
    (fp_poly_list p n).Ok fun r => ∃ a ∈ r, ∃ f : (ZMod p)[X], Fp p a f ∧ ¬ f.Monic := by
  refine (C70_fp_poly_partial h hn hpow hnel).mono fun r ⟨⟨L, h1, _, h2⟩, _⟩ => ?_
  have h20 : (2 : ZMod p) ≠ 0 := by
    intro h
    have : ((2 : ℕ) : ZMod p) = 0 := by exact_mod_cast h
    rw [ZMod.natCast_eq_zero_iff] at this
    exact absurd (Nat.le_of_dvd (by norm_num) this) (by omega)
  have h21 : (2 : ZMod p) ≠ 1 := fun h => by
    have := congrArg (· - 1) h
    norm_num at this
  have hm : C (2 : ZMod p) * X ^ n ∈ L := (h2 _).mpr ⟨by simpa using h20, natDegree_C_mul_X_pow n 2 h20⟩
  obtain ⟨i, hi, hii⟩ := List.getElem_of_mem hm
  refine ⟨r[i]'(by rw [h1.length_eq]; exact hi), List.getElem_mem _, _, h1.get _ hi, ?_⟩
  rw [List.get_eq_getElem]
  simp only [hii]
  rw [Monic, leadingCoeff_C_mul_X_pow]
  exact h21

/-- For every prime between 216 and 1290 the quadratic polynomials can be counted in an `int`, but the power overflows. -/
theorem C70_violated_fp_power (h1 : 216 ≤ p) (h2 : p ≤ 1290) : (p - 1) * p ^ 2 ≤ 2147483647 ∧ fp_poly_list p 2 = ub := by
  refine ⟨(Nat.mul_le_mul (show p - 1 ≤ 1290 by omega) (Nat.pow_le_pow_left h2 2)).trans (by norm_num), ?_⟩
  unfold fp_poly_list
  rw [isub, chk_ok (by unfold InInt; omega), ok_bind]
  have : int_power p ((2 : ℕ) : Int) = ub := int_power_ub (by
    unfold PowOk
    rw [show Nat.log 2 2 = 1 by rw [Nat.log_eq_iff (by norm_num)]; norm_num]
    have : 216 ^ 4 ≤ p ^ 4 := Nat.pow_le_pow_left h1 4
    norm_num at this ⊢
    omega) (by norm_num)
  rw [show ((2 : ℕ) : Int) = 2 from rfl] at this
  rw [this, ub_bind]

variable {b : CPoly IntMod} {M : (ZMod p)[X]} {d : CMod IntMod}

theorem C70_fp_all_partial (h : p ≤ 46341) (hb : Fp p b M) (hM : M ≠ 0) (hmax : M.natDegree ≤ 2147483647)
    (hpow : M.natDegree = 0 ∨ p ^ (2 ^ (Nat.log 2 M.natDegree + 1)) ≤ 2147483647) :
    (fp_polymod_list d b .all).Ok fun r =>
      Listing (CMod.Rep (IntMod.Rep p) M) (fun a b => CMod.lt IntMod.cops a b = ok true) r (fun _ => True) := fp_all_ok h hb hM hmax hpow
theorem C70_fp_units_partial (h : p ≤ 46341) (hb : Fp p b M) (hpos : 0 < M.natDegree) (hmax : (M.natDegree : Int) ≤ INT_MAX)
    (hsz : p ^ (2 * M.natDegree) ≤ 2147483647) :
    (fp_polymod_list d b .units).Ok fun r =>
      Listing (CMod.Rep (IntMod.Rep p) M) (fun a b => CMod.lt IntMod.cops a b = ok true) r IsUnit := fp_units_ok h hb hpos hmax hsz
theorem C70_fp_non_units_partial (h : p ≤ 46341) (hb : Fp p b M) (hpos : 0 < M.natDegree) (hmax : (M.natDegree : Int) ≤ INT_MAX)
    (hsz : p ^ (2 * M.natDegree) ≤ 2147483647) :
    (fp_polymod_list d b .non_units).Ok fun r =>
      Listing (CMod.Rep (IntMod.Rep p) M) (fun a b => CMod.lt IntMod.cops a b = ok true) r (fun x => ¬ IsUnit x) :=
  fp_nonunits_ok h hb hpos hmax hsz

example : fp_poly_list 3 1 = ok [fpOf 3 [0, 1], fpOf 3 [1, 1], fpOf 3 [2, 1], fpOf 3 [0, 2], fpOf 3 [1, 2], fpOf 3 [2, 2]] ∧
    fp_polymod_list ⟨fpOf 0 [], fpOf 0 []⟩ (fpOf 3 [0, 0, 1]) .non_units =
      ok [⟨fpOf 3 [0], fpOf 3 [0, 0, 1]⟩, ⟨fpOf 3 [0, 1], fpOf 3 [0, 0, 1]⟩, ⟨fpOf 3 [0, 2], fpOf 3 [0, 0, 1]⟩] := by decide +kernel

/-! ### polynomials over F2^n and their residues -/
section f2n
variable [hi : Fact (Irreducible m)] {c : CPoly F2Mod} {N : (AdjoinRoot m)[X]} {e : CMod F2Mod}

theorem C70_f2n_poly_partial (hc : Canon a) (ha : toPoly a = m) (hd : m.natDegree ≤ 30) {n : ℕ} (hn : n < 2147483647)
    (hpow : n = 0 ∨ (2 ^ m.natDegree) ^ (2 ^ (Nat.log 2 n + 1)) ≤ 2147483647) (hnel : (2 ^ m.natDegree - 1) * (2 ^ m.natDegree) ^ n ≤ 2147483647) :
    (f2n_poly_list a n).Ok fun r => Listing (F2n m) (fun a b => CPoly.lt F2Mod.cops a b = ok true) r (fun f => f ≠ 0 ∧ f.natDegree = n) :=
  f2n_poly_list_ok hc ha hd hn hpow hnel
theorem C70_f2n_all_partial (hd : m.natDegree ≤ 30) (hb : F2n m c N) (hN : N ≠ 0) (hsz : N.natDegree * m.natDegree ≤ 30) :
    (f2n_polymod_list e c .all).Ok fun r =>
      Listing (CMod.Rep (F2Mod.Rep m) N) (fun a b => CMod.lt F2Mod.cops a b = ok true) r (fun _ => True) := f2n_all_ok hd hb hN hsz
theorem C70_f2n_units_partial (hd : m.natDegree ≤ 30) (hb : F2n m c N) (hpos : 0 < N.natDegree) (hmax : (N.natDegree : Int) ≤ INT_MAX)
    (hsz : 2 ^ (2 * m.natDegree * N.natDegree) ≤ 2147483647) :
    (f2n_polymod_list e c .units).Ok fun r =>
      Listing (CMod.Rep (F2Mod.Rep m) N) (fun a b => CMod.lt F2Mod.cops a b = ok true) r IsUnit := f2n_units_ok hd hb hpos hmax hsz
theorem C70_f2n_non_units_partial (hd : m.natDegree ≤ 30) (hb : F2n m c N) (hpos : 0 < N.natDegree) (hmax : (N.natDegree : Int) ≤ INT_MAX)
    (hsz : 2 ^ (2 * m.natDegree * N.natDegree) ≤ 2147483647) :
    (f2n_polymod_list e c .non_units).Ok fun r =>
      Listing (CMod.Rep (F2Mod.Rep m) N) (fun a b => CMod.lt F2Mod.cops a b = ok true) r (fun x => ¬ IsUnit x) :=
  f2n_nonunits_ok hd hb hpos hmax hsz

example : f2n_poly_list [7] 0 = ok [f2nOf 7 [1], f2nOf 7 [2], f2nOf 7 [3]] ∧
    (do let r ← f2n_polymod_list ⟨f2nOf 0 [], f2nOf 0 []⟩ (f2nOf 7 [2, 1]) .units; ok (r.map (·.residue))) =
      ok [f2nOf 7 [1], f2nOf 7 [2], f2nOf 7 [3]] := by decide +kernel

end f2n

/-! ### affine and projective space -/

/-- C88: the rows of the matrix returned are the vectors of length `n` over the residues modulo `m`, each exactly once.
Missing: overflowing powers. -/
theorem C88_f2_affine_partial (hc : Canon a) (ha : toPoly a = m) (h0 : m ≠ 0) (hd : m.natDegree ≤ 30) {n : ℕ} (hn : 0 < n) (hn' : n ≤ 2147483647)
    (hpow : n = 0 ∨ (2 ^ m.natDegree) ^ (2 ^ (Nat.log 2 n + 1)) ≤ 2147483647) :
    (f2_polymod_An_list tm a n).Ok fun A => ∃ M : Matrix (Fin ((2 ^ m.natDegree) ^ n)) (Fin n) (AdjoinRoot m), MRep (F2Mod.Rep m) A M ∧
      Function.Bijective M := f2_An_ok hc ha h0 hd hn hn' hpow

/-- The rows are non-zero, and every non-zero vector is a multiple of exactly one of them: each point of projective space is
listed once. -/
theorem C88_f2_projective_partial [Fact (Irreducible m)] (hc : Canon a) (ha : toPoly a = m) (hd : m.natDegree ≤ 30) {n : ℕ} (hn' : n < 2147483647)
    (hpow : n = 0 ∨ (2 ^ m.natDegree) ^ (2 ^ (Nat.log 2 n + 1)) ≤ 2147483647) :
    (f2_polymod_Pn_list tm a n).Ok fun A => ∃ M : Matrix (Fin (∑ k ∈ Finset.range (n + 1), (2 ^ m.natDegree) ^ k)) (Fin (n + 1)) (AdjoinRoot m),
      MRep (F2Mod.Rep m) A M ∧ (∀ r, M r ≠ 0) ∧ ∀ v, v ≠ 0 → ∃! r, ∃ c : (AdjoinRoot m)ˣ, v = c • M r := f2_Pn_ok hc ha hd hn' hpow

theorem C88_fp_affine_partial (h : p ≤ 46341) (hb : Fp p b M) (hM : M ≠ 0) (hmax : M.natDegree ≤ 2147483647)
    (hpow : M.natDegree = 0 ∨ p ^ (2 ^ (Nat.log 2 M.natDegree + 1)) ≤ 2147483647) {n : ℕ} (hn : 0 < n) (hn' : n ≤ 2147483647)
    (hpow' : n = 0 ∨ (p ^ M.natDegree) ^ (2 ^ (Nat.log 2 n + 1)) ≤ 2147483647) :
    (fp_polymod_An_list d b n).Ok fun A => ∃ B : Matrix (Fin ((p ^ M.natDegree) ^ n)) (Fin n) (AdjoinRoot M),
      MRep (CMod.Rep (IntMod.Rep p) M) A B ∧ Function.Bijective B := fp_An_ok h hb hM hmax hpow hn hn' hpow'

theorem C88_fp_projective_partial (h : p ≤ 46341) (hb : Fp p b M) [Fact (Irreducible M)] (hmax : M.natDegree ≤ 2147483647)
    (hpow : M.natDegree = 0 ∨ p ^ (2 ^ (Nat.log 2 M.natDegree + 1)) ≤ 2147483647) {n : ℕ} (hn' : n < 2147483647)
    (hpow' : n = 0 ∨ (p ^ M.natDegree) ^ (2 ^ (Nat.log 2 n + 1)) ≤ 2147483647) :
    (fp_polymod_Pn_list d b n).Ok fun A => ∃ B : Matrix (Fin (∑ k ∈ Finset.range (n + 1), (p ^ M.natDegree) ^ k)) (Fin (n + 1)) (AdjoinRoot M),
      MRep (CMod.Rep (IntMod.Rep p) M) A B ∧ (∀ r, B r ≠ 0) ∧ ∀ v, v ≠ 0 → ∃! r, ∃ c : (AdjoinRoot M)ˣ, v = c • B r :=
  fp_Pn_ok h hb hmax hpow hn' hpow'

/-- Affine space of dimension 0 has one point, but is refused. -/
theorem C88_violated_zero (hd : m.natDegree ≤ 30) (ha : toPoly a = m) : f2_polymod_An_list tm a 0 = throw := by
  unfold f2_polymod_An_list
  rw [find_degree_ok, ok_bind, ha, ishl_one (by omega), ok_bind, two_pow_cast]
  unfold an_list
  have : int_power ((2 ^ m.natDegree : ℕ) : Int) ((0 : ℕ) : Int) = _ := int_power_ok (Or.inl rfl) (by norm_num)
  rw [show ((0 : ℕ) : Int) = 0 from rfl] at this
  rw [this, ok_bind]
  unfold TMat.fill
  rw [if_pos (by right; decide), throw_bind]

/-- the 21 points of the projective plane over F4, by their digits -/
example : (do let A ← f2_polymod_Pn_list (fun _ => ok 5#64) [7] 2; ok (A.rows.map fun r => r.map fun x => x.residue.headD 0)) =
    ok [[1, 0, 0], [0, 1, 0], [1, 1, 0], [2, 1, 0], [3, 1, 0], [0, 0, 1], [0, 1, 1], [0, 2, 1], [0, 3, 1], [1, 0, 1], [1, 1, 1],
     [1, 2, 1], [1, 3, 1], [2, 0, 1], [2, 1, 1], [2, 2, 1], [2, 3, 1], [3, 0, 1], [3, 1, 1], [3, 2, 1], [3, 3, 1]] := by decide +kernel
example : (do let A ← f2_polymod_An_list (fun _ => ok 5#64) [3] 2; ok (A.rows.map fun r => r.map fun x => x.residue.headD 0)) =
    ok [[0, 0], [0, 1], [1, 0], [1, 1]] := by decide +kernel

end Spffl.Props
