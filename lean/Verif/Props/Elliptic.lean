/-
Properties C117 and C118: the programs for elliptic curves.
-/
import Verif.Proof.Elliptic

namespace Spffl.Props
open Res Polynomial WeierstrassCurve.Affine
namespace Elliptics
open Spffl.Elliptic

/-! ### Over the integers modulo p -/

section fp
variable {p : ℕ} [hp : Fact p.Prime] {a b c : IntMod} {A B C : ZMod p}

/-- C117: the formulas of the program are the group law: whatever points of the curve y² = x³ + a x² + b x + c go in, the point at infinity
included, their sum comes out. -/
theorem C117_sum (hb : p ≤ 46341) (h2 : p ≠ 2) (ha : IntMod.Rep p a A) (hB : IntMod.Rep p b B) {zero one : IntMod}
    (hz : IntMod.Rep p zero 0) (ho : IntMod.Rep p one 1) {P Q : Pt IntMod} {S T : (fpCurve A B C).Point} (hS : Shows (IntMod.Rep p) P S)
    (hT : Shows (IntMod.Rep p) Q T) : (fp_sum a b zero one P Q).Ok fun R => Shows (IntMod.Rep p) R (S + T) :=
  fp_sum_ok hb h2 ha hB hz ho hS hT

/-- The points which the program takes for points of the curve. -/
def Passes (A B C : ZMod p) : (fpCurve A B C).Point → Prop
  | .zero => C = 1
  | .some x _ _ => A * x ^ 2 + B * x = 0

theorem check_point (hb : p ≤ 46341) (h2 : p ≠ 2) (ha : IntMod.Rep p a A) (hB : IntMod.Rep p b B) (hc : IntMod.Rep p c C)
    {P : Pt IntMod} {S : (fpCurve A B C).Point} (hS : Shows (IntMod.Rep p) P S) :
    (Passes A B C S → fp_check a b c P = ok ()) ∧ (¬ Passes A B C S → fp_check a b c P = throw) := by
  have h20 : (2 : ZMod p) ≠ 0 := by
    have : ((2 : ℕ) : ZMod p) ≠ 0 := by
      rw [Ne, ZMod.natCast_eq_zero_iff]
      intro h
      exact h2 ((Nat.prime_dvd_prime_iff_eq hp.out Nat.prime_two).1 h)
    exact_mod_cast this
  cases S with
  | zero =>
    rw [fp_check_eq hb ha hB hc hS]
    constructor
    · intro h
      rw [if_pos]
      simpa using h.symm
    · intro h
      rw [if_neg]
      simpa using fun h' => h h'.symm
  | some x y hxy =>
    rw [fp_check_eq (z := 1) hb ha hB hc hS]
    have he := (equation_iff _ _).1 hxy.1
    simp only [zero_mul, add_zero] at he
    constructor
    · intro h
      rw [if_pos]
      have h' : A * x ^ 2 + B * x = 0 := h
      linear_combination he + 2 * h'
    · intro h
      rw [if_neg]
      intro h'
      refine h (show A * x ^ 2 + B * x = 0 from ?_)
      have : 2 * (A * x ^ 2 + B * x) = 0 := by linear_combination h' - he
      exact (mul_eq_zero.1 this).resolve_left h20

/-- C117: what the program prints for two points of the curve: their sum, if the two points and the sum get past the check, and otherwise it
stops with a message. -/
theorem C117_main_partial (hb : p ≤ 46341) (h2 : p ≠ 2) (ha : IntMod.Rep p a A) (hB : IntMod.Rep p b B) (hc : IntMod.Rep p c C)
    {P Q : Pt IntMod} {S T : (fpCurve A B C).Point} (hS : Shows (IntMod.Rep p) P S) (hT : Shows (IntMod.Rep p) Q T) :
    (Passes A B C S ∧ Passes A B C T ∧ Passes A B C (S + T) →
      (fp_add_main p a b c P Q).Ok fun R => Shows (IntMod.Rep p) R (S + T)) ∧
    (¬ (Passes A B C S ∧ Passes A B C T ∧ Passes A B C (S + T)) → fp_add_main p a b c P Q = throw) := by
  have hm : InInt (p : ℤ) := by unfold InInt; omega
  obtain ⟨zero, e0, hz⟩ := IntMod.mk'_ok (r := 0) hp.out.pos hm (by unfold InInt; omega)
  obtain ⟨one, e1, ho⟩ := IntMod.mk'_ok (r := 1) hp.out.pos hm (by unfold InInt; omega)
  rw [Int.cast_zero] at hz
  rw [Int.cast_one] at ho
  obtain ⟨R, eR, hR⟩ := fp_sum_ok (C := C) hb h2 ha hB hz ho hS hT
  have k1 := check_point hb h2 ha hB hc hS
  have k2 := check_point hb h2 ha hB hc hT
  have k3 := check_point hb h2 ha hB hc hR
  unfold fp_add_main
  rw [e0, ok_bind, e1, ok_bind]
  constructor
  · rintro ⟨p1, p2, p3⟩
    rw [k1.1 p1, ok_bind, k2.1 p2, ok_bind, eR, ok_bind, k3.1 p3, ok_bind, Ok_ok]
    exact hR
  · intro hn
    by_cases p1 : Passes A B C S
    · rw [k1.1 p1, ok_bind]
      by_cases p2 : Passes A B C T
      · rw [k2.1 p2, ok_bind, eR, ok_bind]
        rw [k3.2 fun p3 => hn ⟨p1, p2, p3⟩]; rfl
      · rw [k2.2 p2]; rfl
    · rw [k1.2 p1]; rfl

/-- C117: for the curve y² = x³ + 1 the program is right. -/
theorem C117_default_curve (hb : p ≤ 46341) (h2 : p ≠ 2) (ha : IntMod.Rep p a 0) (hB : IntMod.Rep p b 0) (hc : IntMod.Rep p c 1)
    {P Q : Pt IntMod} {S T : (fpCurve (0 : ZMod p) 0 1).Point} (hS : Shows (IntMod.Rep p) P S) (hT : Shows (IntMod.Rep p) Q T) :
    (fp_add_main p a b c P Q).Ok fun R => Shows (IntMod.Rep p) R (S + T) := by
  have hall : ∀ S : (fpCurve (0 : ZMod p) 0 1).Point, Passes 0 0 1 S := by
    rintro (_ | ⟨x, y, h⟩)
    · rfl
    · show (0 : ZMod p) * x ^ 2 + 0 * x = 0
      ring
  exact (C117_main_partial hb h2 ha hB hc hS hT).1 ⟨hall _, hall _, hall _⟩

/-- C117: the point at infinity is refused unless c is 1. -/
theorem C117_violated_infinity (hb : p ≤ 46341) (h2 : p ≠ 2) (ha : IntMod.Rep p a A) (hB : IntMod.Rep p b B) (hc : IntMod.Rep p c C)
    (h1 : C ≠ 1) {P Q : Pt IntMod} {S T : (fpCurve A B C).Point} (hS : Shows (IntMod.Rep p) P S) (hT : Shows (IntMod.Rep p) Q T)
    (h : S = 0 ∨ T = 0 ∨ S + T = 0) : fp_add_main p a b c P Q = throw := by
  refine (C117_main_partial hb h2 ha hB hc hS hT).2 ?_
  rintro ⟨p1, p2, p3⟩
  rcases h with rfl | rfl | h
  · exact h1 p1
  · exact h1 p2
  · rw [h] at p3; exact h1 p3

/-- C117: a point of the curve is refused unless a x² + b x is 0. -/
theorem C117_violated_sign (hb : p ≤ 46341) (h2 : p ≠ 2) (ha : IntMod.Rep p a A) (hB : IntMod.Rep p b B) (hc : IntMod.Rep p c C)
    {P Q : Pt IntMod} {x y : ZMod p} (h : (fpCurve A B C).Nonsingular x y) {T : (fpCurve A B C).Point}
    (hS : Shows (IntMod.Rep p) P (Point.some x y h)) (hT : Shows (IntMod.Rep p) Q T) (hx : A * x ^ 2 + B * x ≠ 0) :
    fp_add_main p a b c P Q = throw :=
  (C117_main_partial hb h2 ha hB hc hS hT).2 fun hn => hx hn.1

omit hp in
theorem rep3_unique {P : Pt IntMod} {s t : ZMod p × ZMod p × ZMod p} (hs : PRep3 (IntMod.Rep p) P s) (ht : PRep3 (IntMod.Rep p) P t) : s = t := by
  have : ∀ {u : IntMod} {v w : ZMod p}, IntMod.Rep p u v → IntMod.Rep p u w → v = w := fun h1 h2 => h1.2.2.2.symm.trans h2.2.2.2
  exact Prod.ext (this hs.1 ht.1) (Prod.ext (this hs.2.1 ht.2.1) (this hs.2.2 ht.2.2))

omit hp in
theorem rep3_inj {P Q : Pt IntMod} {s : ZMod p × ZMod p × ZMod p} (hP : PRep3 (IntMod.Rep p) P s) (hQ : PRep3 (IntMod.Rep p) Q s) : P = Q := by
  cases P; cases Q
  simp only [Pt.mk.injEq]
  exact ⟨hP.1.inj hQ.1, hP.2.1.inj hQ.2.1, hP.2.2.inj hQ.2.2⟩

/-- C117: the list of points has (0, 1, 0) and (x, y, 1) for every solution of y² = x³ + a x² + b x + c, nothing else, and nothing twice. -/
theorem C117_solutions (hb : p ≤ 46341) (ha : IntMod.Rep p a A) (hB : IntMod.Rep p b B) (hc : IntMod.Rep p c C) :
    (fp_points_main p a b c).Ok fun out => out.Nodup ∧ ∀ P, P ∈ out ↔ (∃ x y z, IntMod.Rep p P.x x ∧ IntMod.Rep p P.y y ∧ IntMod.Rep p P.z z ∧
      (x = 0 ∧ y = 1 ∧ z = 0 ∨ z = 1 ∧ y ^ 2 = x ^ 3 + A * x ^ 2 + B * x + C)) := by
  refine (fp_points_ok hb ha hB hc).mono fun out hout => ?_
  have hnd : ((List.range p).map fun n : ℕ => (n : ZMod p)).Nodup := by
    refine List.Nodup.map_on ?_ List.nodup_range
    intro u hu v hv h
    rw [List.mem_range] at hu hv
    rw [ZMod.natCast_eq_natCast_iff] at h
    exact Nat.ModEq.eq_of_lt_of_lt h hu hv
  have hall : ∀ x : ZMod p, x ∈ (List.range p).map fun n : ℕ => (n : ZMod p) := by
    intro x
    rw [List.mem_map]
    have : NeZero p := ⟨hp.out.ne_zero⟩
    exact ⟨x.val, List.mem_range.2 (ZMod.val_lt x), ZMod.natCast_zmod_val x⟩
  refine ⟨nodup_of_forall₂ (R := PRep3 (IntMod.Rep p)) (fun _ _ _ => rep3_unique) hout (table_nodup hnd), fun P => ⟨fun h => ?_, ?_⟩⟩
  · obtain ⟨⟨x, y, z⟩, h1, h2⟩ := of_mem_forall₂ hout h
    rw [table_mem hall] at h1
    exact ⟨x, y, z, h2.1, h2.2.1, h2.2.2, by simpa using h1⟩
  · rintro ⟨x, y, z, h1, h2, h3, h⟩
    refine mem_of_forall₂ (R := PRep3 (IntMod.Rep p)) (fun _ _ _ => rep3_inj) hout (x := (x, y, z)) ⟨h1, h2, h3⟩ ?_
    rw [table_mem hall]
    simpa using h

/-- C117: for an elliptic curve (one without singular points) the lines are the points of the curve. -/
theorem C117_points (hb : p ≤ 46341) (ha : IntMod.Rep p a A) (hB : IntMod.Rep p b B) (hc : IntMod.Rep p c C)
    (hΔ : WeierstrassCurve.Δ (fpCurve A B C) ≠ 0) : (fp_points_main p a b c).Ok fun out => out.Nodup ∧
      ∀ P, P ∈ out ↔ ∃ S : (fpCurve A B C).Point, Shows (IntMod.Rep p) P S := by
  refine (C117_solutions hb ha hB hc).mono fun out ⟨h1, h2⟩ => ⟨h1, fun P => (h2 P).trans ⟨?_, ?_⟩⟩
  · rintro ⟨x, y, z, hx, hy, hz, h | h⟩
    · obtain ⟨rfl, rfl, rfl⟩ := h
      exact ⟨0, hx, hy, hz⟩
    · obtain ⟨rfl, h⟩ := h
      have he : (fpCurve A B C).Equation x y := (equation_iff _ _).2 (by simpa using h)
      exact ⟨Point.some x y ((equation_iff_nonsingular_of_Δ_ne_zero hΔ).1 he), hx, hy, hz⟩
  · rintro ⟨_ | ⟨x, y, h⟩, hS⟩
    · exact ⟨0, 1, 0, hS.1, hS.2.1, hS.2.2, Or.inl ⟨rfl, rfl, rfl⟩⟩
    · exact ⟨x, y, 1, hS.1, hS.2.1, hS.2.2, Or.inr ⟨rfl, by simpa using (equation_iff _ _).1 h.1⟩⟩

end fp

/-- The six points of y² = x³ + 1 modulo 5. -/
example : fp_points_main 5 ⟨0, 5⟩ ⟨0, 5⟩ ⟨1, 5⟩ = ok [⟨⟨0, 5⟩, ⟨1, 5⟩, ⟨0, 5⟩⟩, ⟨⟨0, 5⟩, ⟨1, 5⟩, ⟨1, 5⟩⟩, ⟨⟨0, 5⟩, ⟨4, 5⟩, ⟨1, 5⟩⟩,
    ⟨⟨2, 5⟩, ⟨2, 5⟩, ⟨1, 5⟩⟩, ⟨⟨2, 5⟩, ⟨3, 5⟩, ⟨1, 5⟩⟩, ⟨⟨4, 5⟩, ⟨0, 5⟩, ⟨1, 5⟩⟩] := by decide +kernel

/-- Twice the point (2, 2) of that curve is (0, 4). -/
example : fp_add_main 5 ⟨0, 5⟩ ⟨0, 5⟩ ⟨1, 5⟩ ⟨⟨2, 5⟩, ⟨2, 5⟩, ⟨1, 5⟩⟩ ⟨⟨2, 5⟩, ⟨2, 5⟩, ⟨1, 5⟩⟩ = ok ⟨⟨0, 5⟩, ⟨4, 5⟩, ⟨1, 5⟩⟩ := by decide +kernel

/-- (1, 1) is a point of y² = x³ + x² + 4 modulo 5, and refused. -/
example : fp_add_main 5 ⟨1, 5⟩ ⟨0, 5⟩ ⟨4, 5⟩ ⟨⟨1, 5⟩, ⟨1, 5⟩, ⟨1, 5⟩⟩ ⟨⟨1, 5⟩, ⟨1, 5⟩, ⟨1, 5⟩⟩ = throw := by decide +kernel

/-! ### Over the residues of bit polynomials -/

section ft
variable {m : (ZMod 2)[X]} [hm : Fact (Irreducible m)] [DecidableEq (AdjoinRoot m)]
variable {a1 a2 a3 a4 a6 : F2Mod} {A1 A2 A3 A4 A6 : AdjoinRoot m}

/-- Every point of the curve gets past the check. -/
theorem C118_check (r1 : F2Mod.Rep m a1 A1) (r2 : F2Mod.Rep m a2 A2) (r3 : F2Mod.Rep m a3 A3) (r4 : F2Mod.Rep m a4 A4) (r6 : F2Mod.Rep m a6 A6)
    {P : Pt F2Mod} {S : (ftCurve A1 A2 A3 A4 A6).Point} (hS : Shows (F2Mod.Rep m) P S) : ft_check a1 a2 a3 a4 a6 P = ok () := by
  cases S with
  | zero =>
    rw [ft_check_eq (x := 0) (y := 1) (z := 0) r1 r2 r3 r4 r6 hS, if_pos (by ring)]
  | some x y hxy =>
    rw [ft_check_eq (x := x) (y := y) (z := 1) r1 r2 r3 r4 r6 hS, if_pos]
    have he := (equation_iff _ _).1 hxy.1
    linear_combination he + (x ^ 3 + A2 * x ^ 2 + A4 * x + A6) * two_zero (m := m)

/-- C118: for any two points of y² + a1 x y + a3 y = x³ + a2 x² + a4 x + a6 the program prints their sum; except for a point of order two
added to itself, where a division by zero ends it with an exception. -/
theorem C118_main_partial {mm : F2P} (hmc : F2P.Canon mm) (hmm : F2P.toPoly mm = m) (r1 : F2Mod.Rep m a1 A1) (r2 : F2Mod.Rep m a2 A2)
    (r3 : F2Mod.Rep m a3 A3) (r4 : F2Mod.Rep m a4 A4) (r6 : F2Mod.Rep m a6 A6) {P Q : Pt F2Mod} {S T : (ftCurve A1 A2 A3 A4 A6).Point}
    (hS : Shows (F2Mod.Rep m) P S) (hT : Shows (F2Mod.Rep m) Q T) (h : ¬ (S = T ∧ S ≠ 0 ∧ S + S = 0)) :
    (ft_add_main mm a1 a2 a3 a4 a6 P Q).Ok fun R => Shows (F2Mod.Rep m) R (S + T) := by
  have hm0 : m ≠ 0 := hm.out.ne_zero
  obtain ⟨zero, e1, h1, -⟩ := F2Mod.mk'_ok F2P.canon_zero.good hmc hmm hm0
  obtain ⟨one, e2, h2, -⟩ := F2Mod.mk'_ok F2P.canon_one.good hmc hmm hm0
  rw [F2P.toPoly_zero, map_zero] at h1
  rw [F2P.toPoly_one, map_one] at h2
  unfold ft_add_main
  rw [show F2Mod.prime_subfield_element 0 mm = ok zero from e1, ok_bind, show F2Mod.prime_subfield_element 1 mm = ok one from e2, ok_bind,
    C118_check r1 r2 r3 r4 r6 hS, ok_bind, C118_check r1 r2 r3 r4 r6 hT, ok_bind]
  refine ((ft_sum_ok r1 r2 r3 r4 h1 h2 hS hT).2 h).bind fun R hR => ?_
  rw [C118_check r1 r2 r3 r4 r6 hR, ok_bind, Ok_ok]
  exact hR

/-- C118: a point of order two added to itself ends the program; the sum is the point at infinity. -/
theorem C118_violated_order_two {mm : F2P} (hmc : F2P.Canon mm) (hmm : F2P.toPoly mm = m) (r1 : F2Mod.Rep m a1 A1) (r2 : F2Mod.Rep m a2 A2)
    (r3 : F2Mod.Rep m a3 A3) (r4 : F2Mod.Rep m a4 A4) (r6 : F2Mod.Rep m a6 A6) {P Q : Pt F2Mod} {S : (ftCurve A1 A2 A3 A4 A6).Point}
    (hS : Shows (F2Mod.Rep m) P S) (hT : Shows (F2Mod.Rep m) Q S) (h0 : S ≠ 0) (h : S + S = 0) :
    ft_add_main mm a1 a2 a3 a4 a6 P Q = throw := by
  have hm0 : m ≠ 0 := hm.out.ne_zero
  obtain ⟨zero, e1, h1, -⟩ := F2Mod.mk'_ok F2P.canon_zero.good hmc hmm hm0
  obtain ⟨one, e2, h2, -⟩ := F2Mod.mk'_ok F2P.canon_one.good hmc hmm hm0
  rw [F2P.toPoly_zero, map_zero] at h1
  rw [F2P.toPoly_one, map_one] at h2
  unfold ft_add_main
  rw [show F2Mod.prime_subfield_element 0 mm = ok zero from e1, ok_bind, show F2Mod.prime_subfield_element 1 mm = ok one from e2, ok_bind,
    C118_check r1 r2 r3 r4 r6 hS, ok_bind, C118_check r1 r2 r3 r4 r6 hT, ok_bind, (ft_sum_ok r1 r2 r3 r4 h1 h2 hS hT).1 ⟨rfl, h0, h⟩]
  rfl

omit hm [DecidableEq (AdjoinRoot m)] in
theorem ft_rep3_unique {P : Pt F2Mod} {s t : AdjoinRoot m × AdjoinRoot m × AdjoinRoot m} (hs : PRep3 (F2Mod.Rep m) P s)
    (ht : PRep3 (F2Mod.Rep m) P t) : s = t :=
  Prod.ext (hs.1.val.symm.trans ht.1.val) (Prod.ext (hs.2.1.val.symm.trans ht.2.1.val) (hs.2.2.val.symm.trans ht.2.2.val))

omit hm [DecidableEq (AdjoinRoot m)] in
theorem ft_rep3_inj {P Q : Pt F2Mod} {s : AdjoinRoot m × AdjoinRoot m × AdjoinRoot m} (hP : PRep3 (F2Mod.Rep m) P s)
    (hQ : PRep3 (F2Mod.Rep m) Q s) : P = Q := by
  cases P; cases Q
  simp only [Pt.mk.injEq]
  exact ⟨hP.1.ext hQ.1, hP.2.1.ext hQ.2.1, hP.2.2.ext hQ.2.2⟩

/-- C118: the list of points has (0, 1, 0) and (x, y, 1) for every solution, nothing else, and nothing twice. -/
theorem C118_solutions {tm : TrimMask} {mm : F2P} (hmc : F2P.Canon mm) (hmm : F2P.toPoly mm = m) (hd : m.natDegree ≤ 30)
    (r1 : F2Mod.Rep m a1 A1) (r2 : F2Mod.Rep m a2 A2) (r3 : F2Mod.Rep m a3 A3) (r4 : F2Mod.Rep m a4 A4) (r6 : F2Mod.Rep m a6 A6) :
    (ft_points_main tm mm a1 a2 a3 a4 a6).Ok fun out => out.Nodup ∧ ∀ P, P ∈ out ↔ (∃ x y z, F2Mod.Rep m P.x x ∧ F2Mod.Rep m P.y y ∧
      F2Mod.Rep m P.z z ∧ (x = 0 ∧ y = 1 ∧ z = 0 ∨ z = 1 ∧ y ^ 2 + A1 * x * y + A3 * y = x ^ 3 + A2 * x ^ 2 + A4 * x + A6)) := by
  refine (ft_points_ok (tm := tm) hmc hmm hd r1 r2 r3 r4 r6).mono fun out ⟨xs, hnd, hall, hout⟩ => ?_
  refine ⟨nodup_of_forall₂ (R := PRep3 (F2Mod.Rep m)) (fun _ _ _ => ft_rep3_unique) hout (table_nodup hnd), fun P => ⟨fun h => ?_, ?_⟩⟩
  · obtain ⟨⟨x, y, z⟩, h1, h2⟩ := of_mem_forall₂ hout h
    rw [table_mem hall] at h1
    exact ⟨x, y, z, h2.1, h2.2.1, h2.2.2, by simpa using h1⟩
  · rintro ⟨x, y, z, h1, h2, h3, h⟩
    refine mem_of_forall₂ (R := PRep3 (F2Mod.Rep m)) (fun _ _ _ => ft_rep3_inj) hout (x := (x, y, z)) ⟨h1, h2, h3⟩ ?_
    rw [table_mem hall]
    simpa using h

/-- C118: for an elliptic curve the lines are the points of the curve. -/
theorem C118_points {tm : TrimMask} {mm : F2P} (hmc : F2P.Canon mm) (hmm : F2P.toPoly mm = m) (hd : m.natDegree ≤ 30)
    (r1 : F2Mod.Rep m a1 A1) (r2 : F2Mod.Rep m a2 A2) (r3 : F2Mod.Rep m a3 A3) (r4 : F2Mod.Rep m a4 A4) (r6 : F2Mod.Rep m a6 A6)
    (hΔ : WeierstrassCurve.Δ (ftCurve A1 A2 A3 A4 A6) ≠ 0) : (ft_points_main tm mm a1 a2 a3 a4 a6).Ok fun out => out.Nodup ∧
      ∀ P, P ∈ out ↔ ∃ S : (ftCurve A1 A2 A3 A4 A6).Point, Shows (F2Mod.Rep m) P S := by
  refine (C118_solutions (tm := tm) hmc hmm hd r1 r2 r3 r4 r6).mono fun out ⟨h1, h2⟩ => ⟨h1, fun P => (h2 P).trans ⟨?_, ?_⟩⟩
  · rintro ⟨x, y, z, hx, hy, hz, h | h⟩
    · obtain ⟨rfl, rfl, rfl⟩ := h
      exact ⟨0, hx, hy, hz⟩
    · obtain ⟨rfl, h⟩ := h
      have he : (ftCurve A1 A2 A3 A4 A6).Equation x y := (equation_iff _ _).2 (by simpa using h)
      exact ⟨Point.some x y ((equation_iff_nonsingular_of_Δ_ne_zero hΔ).1 he), hx, hy, hz⟩
  · rintro ⟨_ | ⟨x, y, h⟩, hS⟩
    · exact ⟨0, 1, 0, hS.1, hS.2.1, hS.2.2, Or.inl ⟨rfl, rfl, rfl⟩⟩
    · exact ⟨x, y, 1, hS.1, hS.2.1, hS.2.2, Or.inr ⟨rfl, by simpa using (equation_iff _ _).1 h.1⟩⟩

end ft

/-- The eight points of y² + x y = x³ + 1 over the field of four elements, 7 being x² + x + 1. -/
example : (ft_points_main (fun _ => ub) [7] ⟨[1], [7]⟩ ⟨[0], [7]⟩ ⟨[0], [7]⟩ ⟨[0], [7]⟩ ⟨[1], [7]⟩) =
    ok ([([0], [1], [0]), ([0], [1], [1]), ([1], [0], [1]), ([1], [1], [1]), ([2], [0], [1]), ([2], [2], [1]), ([3], [0], [1]), ([3], [3], [1])].map
      fun t : F2P × F2P × F2P => ⟨⟨t.1, [7]⟩, ⟨t.2.1, [7]⟩, ⟨t.2.2, [7]⟩⟩) := by decide +kernel

/-- Twice its point (2, 0) is (1, 0). -/
example : ft_add_main [7] ⟨[1], [7]⟩ ⟨[0], [7]⟩ ⟨[0], [7]⟩ ⟨[0], [7]⟩ ⟨[1], [7]⟩ ⟨⟨[2], [7]⟩, ⟨[0], [7]⟩, ⟨[1], [7]⟩⟩ ⟨⟨[2], [7]⟩, ⟨[0], [7]⟩, ⟨[1], [7]⟩⟩ =
    ok ⟨⟨[1], [7]⟩, ⟨[0], [7]⟩, ⟨[1], [7]⟩⟩ := by decide +kernel

/-- Its point (0, 1) has order two. -/
example : ft_add_main [7] ⟨[1], [7]⟩ ⟨[0], [7]⟩ ⟨[0], [7]⟩ ⟨[0], [7]⟩ ⟨[1], [7]⟩ ⟨⟨[0], [7]⟩, ⟨[1], [7]⟩, ⟨[1], [7]⟩⟩ ⟨⟨[0], [7]⟩, ⟨[1], [7]⟩, ⟨[1], [7]⟩⟩ =
    throw := by decide +kernel

end Elliptics
end Spffl.Props
