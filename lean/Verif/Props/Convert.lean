/-
Property C86: conversion between presentations of the finite fields F_{2^n}.

`F2[x]/(m1)` and `F2[x]/(m2)` are `AdjoinRoot m1` and `AdjoinRoot m2`, with irreducible moduli.  `IsGen w` says that
every unit is a power of `w`.  `qs` and `vs` stand for the two calls of `qsort` (see Props/Units.lean).
-/
import Verif.Proof.Convert
import Verif.Props.Units
import Verif.Props.TMatrix

namespace Spffl.Props
open Res Polynomial CPoly CP F2P TM
namespace LA

/-- A sorting function as required exists for every comparator. -/
theorem C86_sort_exists {α : Type} (lt : α → α → Res Bool) : ∃ vs, IsSort lt vs := exists_sort lt

variable {m1 m2 : (ZMod 2)[X]} [hm1 : Fact (Irreducible m1)] [hm2 : Fact (Irreducible m2)]
  {qs : List (F2Mod × ℕ) → List (F2Mod × ℕ)} {g1 g2 : F2Mod} {w : AdjoinRoot m1} {v : AdjoinRoot m2}

/-- C86, preparation: given any element `g1` of the first field, the result is the least root, in the second field, of
the minimal polynomial of `g1`; and it is `false` exactly when there is no root.
Missing: second moduli of degree above 30 (`C57_violated_31`). -/
theorem C86_prep_partial {vs : List F2Mod → List F2Mod} (hvs : IsSort F2Mod.lt vs) (hd1 : (m1.natDegree : Int) ≤ INT_MAX)
    (hd2 : m2.natDegree ≤ 30) (h1 : F2Mod.Rep m1 g1 w) {mm : F2P} (hmc : Canon mm) (hm : toPoly mm = m2) :
    (Convert.prep vs g1 mm).Ok (fun r => match r with
      | none => ∀ y : AdjoinRoot m2, aeval y (minpoly (ZMod 2) w) ≠ 0
      | some g => ∃ v, F2Mod.Rep m2 g v ∧ aeval v (minpoly (ZMod 2) w) = 0 ∧
          ∀ y, aeval y (minpoly (ZMod 2) w) = 0 → F2nP.kv m2 v ≤ F2nP.kv m2 y) := Convert.prep_ok hvs hd1 hd2 h1 hmc hm

/-- C86, preparation: for a generator `g1` it succeeds exactly when the first field embeds into the second, that is when
the degree of the first modulus divides that of the second. -/
theorem C86_prep_iff {vs : List F2Mod → List F2Mod} (hvs : IsSort F2Mod.lt vs) (hd1 : (m1.natDegree : Int) ≤ INT_MAX)
    (hd2 : m2.natDegree ≤ 30) (h1 : F2Mod.Rep m1 g1 w) (hg : IsGen w) {mm : F2P} (hmc : Canon mm) (hm : toPoly mm = m2) :
    (Convert.prep vs g1 mm).Ok (fun r => (r.isSome ↔ m1.natDegree ∣ m2.natDegree) ∧ (r.isSome ↔ Nonempty (AdjoinRoot m1 →+* AdjoinRoot m2))) := by
  refine (Convert.prep_ok hvs hd1 hd2 h1 hmc hm).mono fun r hr => ?_
  have h : r.isSome ↔ ∃ y : AdjoinRoot m2, aeval y (minpoly (ZMod 2) w) = 0 := by
    cases r with
    | none => simpa using hr
    | some g =>
      obtain ⟨v, -, hv, -⟩ := hr
      simpa using ⟨v, hv⟩
  refine ⟨h.trans (Convert.root_iff_dvd hg), h.trans ?_⟩
  constructor
  · rintro ⟨y, hy⟩
    obtain ⟨φ, -⟩ := Convert.hom_exists hg hy
    exact ⟨φ⟩
  · rintro ⟨φ⟩
    exact ⟨φ w, by rw [aeval_def, eval₂_eq_eval_map,
      show algebraMap (ZMod 2) (AdjoinRoot m2) = φ.comp (algebraMap (ZMod 2) (AdjoinRoot m1)) from Subsingleton.elim _ _, ← Polynomial.map_map,
      eval_map_apply, ← eval₂_eq_eval_map, ← aeval_def, minpoly.aeval, map_zero]⟩

/-- C86, conversion: if `g1` generates the units of the first field and `g2` is a root of its minimal polynomial, as
`f2_polymod_convert_prep` delivers, there is exactly one homomorphism of fields taking `g1` to `g2`; converting an
element, a polynomial or a matrix applies it to the element, to all coefficients, to all entries.  Between fields of the
same size it is bijective.  Missing: first moduli of degree above 30 (`C86_violated_31`, `C86_violated_32`). -/
theorem C86_convert_partial (hqs : IsQsort F2Mod.lt qs) (hd : m1.natDegree ≤ 30) (h1 : F2Mod.Rep m1 g1 w) (h2 : F2Mod.Rep m2 g2 v)
    (hw : w ≠ 0) (hg : IsGen w) (hv : aeval v (minpoly (ZMod 2) w) = 0) :
    ∃ φ : AdjoinRoot m1 →+* AdjoinRoot m2, φ w = v ∧ (∀ ψ : AdjoinRoot m1 →+* AdjoinRoot m2, ψ w = v → ψ = φ) ∧
      (m1.natDegree = m2.natDegree → Function.Bijective φ) ∧
      (∀ a x, F2Mod.Rep m1 a x → (Convert.scalar qs g1 g2 a).Ok (fun r => F2Mod.Rep m2 r (φ x))) ∧
      (∀ a f, F2n m1 a f → (Convert.poly qs g1 g2 a).Ok (fun r => F2n m2 r (f.map φ))) ∧
      (∀ (r c : ℕ) (A : TMat F2Mod) (M : Matrix (Fin r) (Fin c) (AdjoinRoot m1)), 0 < r → 0 < c → F2nMat m1 A M →
        (Convert.matrix qs g1 g2 A).Ok (fun B => F2nMat m2 B (M.map φ))) := by
  haveI : Finite (AdjoinRoot m1) := Module.finite_of_finite (ZMod 2)
  haveI : Finite (AdjoinRoot m2) := Module.finite_of_finite (ZMod 2)
  obtain ⟨φ, hφ⟩ := Convert.hom_exists hg hv
  have hφ' : (φ : AdjoinRoot m1 →+* AdjoinRoot m2) w = v := hφ
  refine ⟨φ, hφ', fun ψ hψ => Convert.hom_unique hg (hψ.trans hφ'.symm), fun h => ?_, fun a x ha => Convert.scalar_ok hqs hd h1 h2 hw hg hφ' ha,
    fun a f ha => Convert.poly_ok hqs hd h1 h2 hw hg hφ' ha, fun r c A M hr hc hA => Convert.matrix_ok hqs hd h1 h2 hw hg hφ' hr hc hA⟩
  refine ((Nat.bijective_iff_injective_and_card _).mpr ⟨φ.toRingHom.injective, ?_⟩)
  rw [F2nP.natCard_eq hm1.out.ne_zero, F2nP.natCard_eq hm2.out.ne_zero, h]

/-- C86: an element that is not a power of `g1` is refused. -/
theorem C86_refuses (hqs : IsQsort F2Mod.lt qs) (hd : m1.natDegree ≤ 30) (h1 : F2Mod.Rep m1 g1 w) (h2 : F2Mod.Rep m2 g2 v)
    {a : F2Mod} {x : AdjoinRoot m1} (ha : F2Mod.Rep m1 a x) (hx : x ≠ 0) (hno : w = 0 ∨ ¬ ∃ k : ℕ, w ^ k = x) :
    Convert.scalar qs g1 g2 a = throw := Convert.scalar_throw hqs hd h1 h2 ha hx hno

/-- F2[x]/(x^3+x+1) to F2[x]/(x^3+x^2+1): the minimal polynomial of x has the roots x+1, x^2+1 and x^2+x there. -/
def vsort (l : List F2Mod) : List F2Mod := (isort F2Mod.lt (l.map fun a => (a, 0))).map Prod.fst
example : Convert.prep vsort ⟨[2], [0xb]⟩ [0xd] = ok (some ⟨[3], [0xd]⟩) := by decide +kernel
example : Convert.prep vsort ⟨[2], [0xb]⟩ [0x13] = ok none := by decide +kernel
/-- x^2+x+1 = x^5 goes to (x+1)^5 = x^2+x+1 -/
example : Convert.scalar (isort F2Mod.lt) ⟨[2], [0xb]⟩ ⟨[3], [0xd]⟩ ⟨[7], [0xb]⟩ = ok ⟨[7], [0xd]⟩ := by decide +kernel
example : Convert.poly (isort F2Mod.lt) ⟨[2], [0xb]⟩ ⟨[3], [0xd]⟩ (f2nOf 0xb [7, 0, 2]) = ok (f2nOf 0xd [7, 0, 3]) := by decide +kernel
example : Convert.matrix (isort F2Mod.lt) ⟨[2], [0xb]⟩ ⟨[3], [0xd]⟩ ⟨1, 2, [[⟨[7], [0xb]⟩, ⟨[0], [0xb]⟩]]⟩ =
    ok ⟨1, 2, [[⟨[7], [0xd]⟩, ⟨[0], [0xd]⟩]]⟩ := by decide +kernel

/-- From a first modulus of degree 31 no non-zero element can be converted; from degree 32 on the call is undefined. -/
theorem C86_violated_31 {a : F2Mod} {x : AdjoinRoot m1} (h1 : F2Mod.Rep m1 g1 w) (h2 : F2Mod.Rep m2 g2 v) (ha : F2Mod.Rep m1 a x) (hx : x ≠ 0)
    (hd : m1.natDegree = 31) : Convert.scalar qs g1 g2 a = throw := by
  classical
  unfold Convert.scalar
  obtain ⟨z1, e1, hz1⟩ := F2Mod.sub_ok h1 h1
  obtain ⟨z2, e2, -⟩ := F2Mod.sub_ok h2 h2
  rw [sub_self] at hz1
  rw [e1, ok_bind, e2, ok_bind, F2Mod.eq_ok ha hz1, ok_bind, if_neg (by simpa using hx), C61_violated_31 qs h1 hd, throw_bind]
theorem C86_violated_32 {a : F2Mod} {x : AdjoinRoot m1} (h1 : F2Mod.Rep m1 g1 w) (h2 : F2Mod.Rep m2 g2 v) (ha : F2Mod.Rep m1 a x) (hx : x ≠ 0)
    (hd : 32 ≤ m1.natDegree) : Convert.scalar qs g1 g2 a = ub := by
  classical
  unfold Convert.scalar
  obtain ⟨z1, e1, hz1⟩ := F2Mod.sub_ok h1 h1
  obtain ⟨z2, e2, -⟩ := F2Mod.sub_ok h2 h2
  rw [sub_self] at hz1
  rw [e1, ok_bind, e2, ok_bind, F2Mod.eq_ok ha hz1, ok_bind, if_neg (by simpa using hx), C61_violated_32 qs h1 hd, ub_bind]

end LA
end Spffl.Props
