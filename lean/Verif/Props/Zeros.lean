/-
Property C128: the numbers of affine and projective zeros that f2apolist prints (pre-cmake/apps/agff/agff.cpp).

`Zeros.Rep2 c z`: the coefficient `c`, a residue modulo x + 1, is the element `z` of F2.
-/
import Verif.Proof.Zeros
import Verif.Props.MvPoly
import Mathlib.RingTheory.MvPolynomial.Homogeneous

namespace Spffl.Props
open Res Polynomial F2P
namespace ZeroCount
open Spffl.Zeros Spffl.MvPoly Lists
variable {m : (ZMod 2)[X]} {n B : ℕ} {p : List (Mono F2Mod)} {mm : F2P} {tm : TrimMask}

/-- C128: the embedding of the coefficients is the one of F2 into F2[x]/m. -/
theorem C128_embed {zero one : F2Mod} (h0 : F2Mod.Rep m zero 0) (h1 : F2Mod.Rep m one 1) {F : MvPolynomial (Fin n) (ZMod 2)}
    (hp : MvPoly.Rep Rep2 B p F) :
    (embed zero one p).Ok (fun r => MvPoly.Rep (F2Mod.Rep m) B r (MvPolynomial.map (AdjoinRoot.of m) F)) := by
  obtain ⟨L, h2, h3⟩ := hp
  exact (embed_ok h0 h1 h2).mono fun r hr => ⟨_, hr, den_map h3⟩

/-- C128: the number of affine zeros.  Missing: sizes at which int_power overflows (C88). -/
theorem C128_affine_partial (hc : Canon mm) (hmm : toPoly mm = m) (h0 : m ≠ 0) (hd : m.natDegree ≤ 30) (hn : 0 < n) (hn' : n ≤ 2147483647)
    (hpow : (2 ^ m.natDegree) ^ (2 ^ (Nat.log 2 n + 1)) ≤ 2147483647) {F : MvPolynomial (Fin n) (ZMod 2)} (hp : MvPoly.Rep Rep2 B p F) :
    affine tm p mm n = ok ((Nat.card {x : Fin n → AdjoinRoot m // MvPolynomial.eval₂ (AdjoinRoot.of m) x F = 0} : ℕ) : Int) := by
  obtain ⟨zero, e0, hz⟩ := psub_zero hc hmm h0
  obtain ⟨one, e1, ho⟩ := psub_one hc hmm h0
  obtain ⟨f, ef, hf⟩ := C128_embed hz ho hp
  obtain ⟨A, eA, M, hA, hM⟩ := f2_An_ok (tm := tm) hc hmm h0 hd hn hn' (Or.inr hpow)
  unfold Zeros.affine
  have hN : (2 ^ m.natDegree) ^ n ≤ 2147483647 :=
    (Nat.pow_le_pow_right (by positivity) (Nat.lt_pow_succ_log_self (by norm_num) n).le).trans hpow
  rw [e0, ok_bind, e1, ok_bind, ef, ok_bind, eA, ok_bind, count_ok h0 hn hf hA hN hz]
  congr 2
  refine Nat.card_congr ((Equiv.ofBijective M hM).subtypeEquiv fun r => ?_)
  rw [MvPolynomial.eval_map]; rfl

section proj
variable [hi : Fact (Irreducible m)]

theorem two_le_card : 2 ≤ 2 ^ m.natDegree := by
  have : m.natDegree ≠ 0 := fun h => absurd (natDegree_eq_zero_iff_degree_le_zero.1 h) (not_le.2 (degree_pos_of_irreducible hi.out))
  calc 2 = 2 ^ 1 := rfl
    _ ≤ _ := Nat.pow_le_pow_right (by norm_num) (Nat.pos_of_ne_zero this)

theorem points_le (hpow : (2 ^ m.natDegree) ^ (2 ^ (Nat.log 2 n + 1)) ≤ 2147483647) :
    ∑ k ∈ Finset.range (n + 1), (2 ^ m.natDegree) ^ k ≤ 2147483647 := by
  refine (Nat.geomSum_lt (m := 2 ^ m.natDegree) (n := n + 1) two_le_card fun k hk => Finset.mem_range.1 hk).le.trans ?_
  exact (Nat.pow_le_pow_right (by positivity) (Nat.lt_pow_succ_log_self (by norm_num) n)).trans hpow

/-- Each projective zero of a homogeneous polynomial has q - 1 coordinate vectors. -/
theorem cone {N : ℕ} {M : Matrix (Fin N) (Fin n) (AdjoinRoot m)} (h1 : ∀ r, M r ≠ 0) (h2 : ∀ v, v ≠ 0 → ∃! r, ∃ c : (AdjoinRoot m)ˣ, v = c • M r)
    {F : MvPolynomial (Fin n) (AdjoinRoot m)} {d : ℕ} (hF : F.IsHomogeneous d) :
    Nat.card {r // MvPolynomial.eval (M r) F = 0} * (2 ^ m.natDegree - 1) = Nat.card {v : Fin n → AdjoinRoot m // v ≠ 0 ∧ MvPolynomial.eval v F = 0} := by
  have hfin : Finite (AdjoinRoot m) := Nat.finite_of_card_ne_zero (by rw [F2nP.natCard_eq hi.out.ne_zero]; positivity)
  have hu : Nat.card (AdjoinRoot m)ˣ = 2 ^ m.natDegree - 1 := by rw [Nat.card_units, F2nP.natCard_eq hi.out.ne_zero]
  have hs : ∀ (c : (AdjoinRoot m)ˣ) (x : Fin n → AdjoinRoot m), MvPolynomial.eval (c • x) F = 0 ↔ MvPolynomial.eval x F = 0 := fun c x => by
    have : c • x = fun i => (c : AdjoinRoot m) * x i := by funext i; rfl
    rw [this, eval_smul hF]
    exact ((c.isUnit.pow d).mul_right_eq_zero)
  have hne : ∀ (c : (AdjoinRoot m)ˣ) r, c • M r ≠ 0 := fun c r h => h1 r ((smul_eq_zero_iff_eq c).1 h)
  rw [← hu, ← Nat.card_prod]
  refine Nat.card_congr (Equiv.ofBijective (fun q => ⟨q.2 • M q.1.1, hne _ _, (hs _ _).2 q.1.2⟩) ⟨fun a b hab => ?_, fun v => ?_⟩)
  · have e : a.2 • M a.1.1 = b.2 • M b.1.1 := congrArg Subtype.val hab
    obtain ⟨r, _, hr⟩ := h2 _ (hne a.2 a.1.1)
    have hab' : a.1.1 = b.1.1 := (hr _ ⟨a.2, rfl⟩).trans (hr _ ⟨b.2, e⟩).symm
    refine Prod.ext (Subtype.ext hab') (Units.ext ?_)
    rw [hab'] at e
    obtain ⟨i, hi0⟩ := Function.ne_iff.1 (h1 b.1.1)
    exact mul_right_cancel₀ hi0 (congrFun e i)
  · obtain ⟨r, ⟨c, hc⟩, _⟩ := h2 v.1 v.2.1
    refine ⟨(⟨r, (hs c _).1 (hc ▸ v.2.2)⟩, c), Subtype.ext hc.symm⟩

/-- C128: the number of projective zeros of a polynomial that is not homogeneous, in fewer than 8 variables: times q - 1 it is the number of
vectors other than 0 at which the homogenized polynomial G is zero; G with 1 for the last variable is F. -/
theorem C128_projective_partial (hc : Canon mm) (hmm : toPoly mm = m) (hd : m.natDegree ≤ 30) (h8 : n < 8)
    (hpow : (2 ^ m.natDegree) ^ (2 ^ (Nat.log 2 n + 1)) ≤ 2147483647) (hB : n * B < 2 ^ 31) {F : MvPolynomial (Fin n) (ZMod 2)}
    (hp : MvPolys.Clean Rep2 B p F) (hF : ¬ ∃ d, F.IsHomogeneous d) :
    (projective tm p mm n).Ok (fun r => ∃ (G : MvPolynomial (Fin (n + 1)) (AdjoinRoot m)) (d : ℕ), G.IsHomogeneous d ∧
      MvPolynomial.aeval (Fin.snoc (α := fun _ => MvPolynomial (Fin n) (AdjoinRoot m)) MvPolynomial.X 1) G = MvPolynomial.map (AdjoinRoot.of m) F ∧
      r * (2 ^ m.natDegree - 1 : ℕ) = (Nat.card {v : Fin (n + 1) → AdjoinRoot m // v ≠ 0 ∧ MvPolynomial.eval v G = 0} : ℕ)) := by
  have h0 := hi.out.ne_zero
  obtain ⟨zero, e0, hz⟩ := psub_zero hc hmm h0
  obtain ⟨one, e1, ho⟩ := psub_one hc hmm h0
  obtain ⟨L, h2, h3, h4⟩ := hp
  obtain ⟨f, ef, hf⟩ := embed_ok hz ho h2
  have h4' : ∀ t ∈ L.map fun t => (t.1, AdjoinRoot.of m t.2), t.2 ≠ 0 := fun t ht => by
    obtain ⟨s, hs, rfl⟩ := List.mem_map.1 ht
    exact fun h => h4 s hs ((map_eq_zero (AdjoinRoot.of m)).1 h)
  obtain ⟨g, eg, G, L', k1, k2, k3, k4, k5⟩ := homogenize_ok hB h8 hf (den_map h3) h4'
    fun ⟨d, h⟩ => hF ⟨d, MvPolynomial.IsHomogeneous.of_map (AdjoinRoot.of m).injective h⟩
  obtain ⟨A, eA, M, hA, hM1, hM2⟩ := f2_Pn_ok (tm := tm) hc hmm hd (n := n) (by omega) (Or.inr hpow)
  refine ⟨_, by unfold projective; rw [e0, ok_bind, e1, ok_bind, ef, ok_bind, eg, ok_bind, eA, ok_bind,
    count_ok h0 (Nat.succ_pos n) ⟨L', k1, k2⟩ hA (points_le hpow) hz], G, _, k4, k5, ?_⟩
  rw [← cone hM1 hM2 k4]
  push_cast
  rfl

/-- C128, refuted for homogeneous polynomials: they are not given another variable, and at the points with n + 1 coordinates the
program ends. -/
theorem C128_violated_homogeneous (hc : Canon mm) (hmm : toPoly mm = m) (hd : m.natDegree ≤ 30) (hn' : n < 2147483647)
    (hpow : (2 ^ m.natDegree) ^ (2 ^ (Nat.log 2 n + 1)) ≤ 2147483647) (hB : n * B < 2 ^ 31) {F : MvPolynomial (Fin n) (ZMod 2)}
    (hp : MvPolys.Clean Rep2 B p F) (hF0 : F ≠ 0) {d : ℕ} (hF : F.IsHomogeneous d) : projective tm p mm n = throw := by
  have h0 := hi.out.ne_zero
  obtain ⟨zero, e0, hz⟩ := psub_zero hc hmm h0
  obtain ⟨one, e1, ho⟩ := psub_one hc hmm h0
  obtain ⟨L, h2, h3, h4⟩ := hp
  obtain ⟨f, ef, hf⟩ := embed_ok hz ho h2
  have h4' : ∀ t ∈ L.map fun t => (t.1, AdjoinRoot.of m t.2), t.2 ≠ 0 := fun t ht => by
    obtain ⟨s, hs, rfl⟩ := List.mem_map.1 ht
    exact fun h => h4 s hs ((map_eq_zero (AdjoinRoot.of m)).1 h)
  obtain ⟨b, eb, hb⟩ := is_homogeneous_ok hB hf (den_map h3) h4'
  obtain ⟨A, eA, M, hA, hM1, hM2⟩ := f2_Pn_ok (tm := tm) hc hmm hd (n := n) hn' (Or.inr hpow)
  have hg : homogenize f = ok f := by rw [homogenize, eb, ok_bind, if_pos (hb.2 ⟨d, hF.map _⟩)]
  unfold projective
  rw [e0, ok_bind, e1, ok_bind, ef, ok_bind, hg, ok_bind, eA, ok_bind]
  cases L with
  | nil => exact absurd (h3.unique den_nil) hF0
  | cons s L =>
    rw [List.map_cons] at hf
    obtain ⟨t, f', ht, hf', rfl⟩ := List.forall₂_cons_right_iff.1 hf
    refine count_len h0 (Finset.sum_pos (fun k _ => by positivity) ⟨0, by simp⟩) (Nat.succ_pos n) (k := n) (by omega) ?_ hA
    rw [ht.2.1]; simp

end proj

/-! ### examples -/

/-- y² + y + x³ + 1 over F2; over the field with 4 elements -/
private def ell : List (Mono F2Mod) := [⟨⟨[1], [3]⟩, [0, 2]⟩, ⟨⟨[1], [3]⟩, [0, 1]⟩, ⟨⟨[1], [3]⟩, [3, 0]⟩, ⟨⟨[1], [3]⟩, [0, 0]⟩]

example : affine (fun _ => ok 5#64) ell [7] 2 = ok 8 ∧ projective (fun _ => ok 5#64) ell [7] 2 = ok 9 := by decide +kernel
/-- x² + x y + y² has one affine zero over F2, and no number of projective zeros is printed. -/
example : affine (fun _ => ok 5#64) [⟨⟨[1], [3]⟩, [2, 0]⟩, ⟨⟨[1], [3]⟩, [1, 1]⟩, ⟨⟨[1], [3]⟩, [0, 2]⟩] [3] 2 = ok 1 ∧
    projective (fun _ => ok 5#64) [⟨⟨[1], [3]⟩, [2, 0]⟩, ⟨⟨[1], [3]⟩, [1, 1]⟩, ⟨⟨[1], [3]⟩, [0, 2]⟩] [3] 2 = throw := by decide +kernel

end ZeroCount
end Spffl.Props
