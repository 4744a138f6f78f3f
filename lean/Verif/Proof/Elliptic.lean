/-
Addition on elliptic curves over the integers modulo p: the program against the group law.
-/
import Verif.Model.Elliptic
import Verif.Proof.IntMod
import Verif.Proof.F2PolyMod
import Verif.Proof.Lists
import Mathlib.AlgebraicGeometry.EllipticCurve.Affine.Point

namespace Spffl
open Res
namespace Elliptic

theorem and3_ok {P Q R : Prop} [Decidable P] [Decidable Q] [Decidable R] :
    and3 (ok (decide P)) (ok (decide Q)) (ok (decide R)) = ok (decide (P ∧ Q ∧ R)) := by
  unfold and3
  by_cases hP : P <;> by_cases hQ : Q <;> by_cases hR : R <;> simp [hP, hQ, hR]

/-! ### Loops that print lines -/

section lines
open List

theorem lines_ok {F β γ : Type} {R : β → γ → Prop} {xs : List F} {f : ℕ → List β → Res (List β)} {g : F → List γ} {n : ℕ}
    (hn : xs.length = n) (hf : ∀ (i : ℕ) (x : F), xs[i]? = some x → ∀ out O, Forall₂ R out O → (f i out).Ok fun o => Forall₂ R o (O ++ g x))
    {out : List β} {O : List γ} (h : Forall₂ R out O) : (forUp 0 n out f).Ok fun o => Forall₂ R o (O ++ xs.flatMap g) := by
  have := forUp_ok (body := f) (lo := 0) (hi := n) (s := out) (I := fun i o => Forall₂ R o (O ++ (xs.take i).flatMap g)) (Nat.zero_le _)
    (by simpa using h) (fun i o _ hi ho => by
      obtain ⟨x, hx⟩ : ∃ x, xs[i]? = some x := ⟨_, List.getElem?_eq_getElem (by omega)⟩
      refine (hf i x hx _ _ ho).mono fun o' ho' => ?_
      rw [List.take_add_one, hx, Option.toList_some, List.flatMap_append, List.flatMap_singleton, ← List.append_assoc]
      exact ho')
  refine this.mono fun o ho => ?_
  rwa [List.take_of_length_le (by omega)] at ho

/-- The lines for a curve: the point at infinity and the solutions. -/
def table {F : Type} [Zero F] [One F] (E : F → F → Bool) (xs : List F) : List (F × F × F) :=
  (0, 1, 0) :: xs.flatMap fun x => (xs.filter fun y => E x y).map fun y => (x, y, 1)

theorem filter_zero {F : Type} [DecidableEq F] {xs : List F} (hn : xs.Nodup) {a : F} (ha : a ∈ xs) : (xs.filter fun x => decide (x = a)) = [a] := by
  have : (xs.filter fun x => decide (x = a)) = xs.filter (fun x => x == a) := by
    congr 1
  rw [this, List.filter_beq, List.count_eq_one_of_mem hn ha]; rfl

theorem flatMap_ite {F γ : Type} (E : F → Bool) (g : F → γ) (xs : List F) :
    (xs.flatMap fun x => if E x then [g x] else []) = (xs.filter E).map g := by
  induction xs with
  | nil => rfl
  | cons x xs ih => rw [List.flatMap_cons, ih, List.filter_cons]; split <;> simp

theorem table_mem {F : Type} [Zero F] [One F] {E : F → F → Bool} {xs : List F} (hx : ∀ x, x ∈ xs) {x y z : F} :
    (x, y, z) ∈ table E xs ↔ (x = 0 ∧ y = 1 ∧ z = 0) ∨ (z = 1 ∧ E x y = true) := by
  unfold table
  simp only [List.mem_cons, List.mem_flatMap, List.mem_map, List.mem_filter, Prod.mk.injEq]
  constructor
  · rintro (h | ⟨x', -, y', ⟨-, h⟩, rfl, rfl, rfl⟩)
    · exact Or.inl h
    · exact Or.inr ⟨rfl, h⟩
  · rintro (h | ⟨rfl, h⟩)
    · exact Or.inl h
    · exact Or.inr ⟨x, hx _, y, ⟨hx _, h⟩, rfl, rfl, rfl⟩

theorem table_nodup {F : Type} [MulZeroOneClass F] [Nontrivial F] {E : F → F → Bool} {xs : List F} (hn : xs.Nodup) : (table E xs).Nodup := by
  unfold table
  rw [List.nodup_cons]
  constructor
  · simp only [List.mem_flatMap, List.mem_map, Prod.mk.injEq, not_exists, not_and]
    intro _ _ _ _ _ _ h
    exact absurd h one_ne_zero
  · rw [List.nodup_flatMap]
    refine ⟨fun x _ => ?_, ?_⟩
    · exact List.Nodup.map (fun a b h => by simpa using h) (hn.filter _)
    · refine hn.imp ?_
      intro a b hab
      simp only [Function.onFun, List.disjoint_left, List.mem_map]
      rintro t ⟨y, -, rfl⟩ ⟨y', -, h⟩
      simp only [Prod.mk.injEq] at h
      exact hab h.1.symm

theorem nodup_of_forall₂ {β γ : Type} {R : β → γ → Prop} (hR : ∀ a x y, R a x → R a y → x = y) {l : List β} {L : List γ} (h : Forall₂ R l L)
    (hL : L.Nodup) : l.Nodup := by
  induction h with
  | nil => exact List.nodup_nil
  | @cons a x l L hax h ih =>
    rw [List.nodup_cons] at hL ⊢
    refine ⟨fun ha => hL.1 ?_, ih hL.2⟩
    obtain ⟨i, hi, rfl⟩ := List.getElem_of_mem ha
    have := h.get hi (h.length_eq ▸ hi)
    rw [hR _ _ _ hax this]
    exact List.getElem_mem _

theorem mem_of_forall₂ {β γ : Type} {R : β → γ → Prop} (hR : ∀ a b x, R a x → R b x → a = b) {l : List β} {L : List γ} (h : Forall₂ R l L)
    {a : β} {x : γ} (hax : R a x) : x ∈ L → a ∈ l := by
  induction h with
  | nil => exact fun h => absurd h List.not_mem_nil
  | @cons b y l L hby h ih =>
    rw [List.mem_cons, List.mem_cons]
    rintro (rfl | h)
    · exact Or.inl (hR _ _ _ hax hby)
    · exact Or.inr (ih h)

theorem of_mem_forall₂ {β γ : Type} {R : β → γ → Prop} {l : List β} {L : List γ} (h : Forall₂ R l L)
    {a : β} : a ∈ l → ∃ x ∈ L, R a x := by
  intro ha
  obtain ⟨i, hi, rfl⟩ := List.getElem_of_mem ha
  exact ⟨_, List.getElem_mem (h.length_eq ▸ hi), h.get hi (h.length_eq ▸ hi)⟩

end lines

section fp
variable {p : ℕ} [hp : Fact p.Prime]

/-- The three coordinates stand for these. -/
def PRep (p : ℕ) (P : Pt IntMod) (x y z : ZMod p) : Prop := IntMod.Rep p P.x x ∧ IntMod.Rep p P.y y ∧ IntMod.Rep p P.z z

theorem mulInt_ok (hb : p ≤ 46341) {u : IntMod} {x : ZMod p} (h : IntMod.Rep p u x) {k : ℤ} (hk : 0 ≤ k) (hk' : k ≤ 3) :
    (IntMod.mulInt u k).Ok fun r => IntMod.Rep p r (x * (k : ZMod p)) := by
  obtain ⟨h1, h2, h3, h4⟩ := h
  have hi : InInt (u.residue * k) := by
    have h5 : u.residue * k ≤ 46341 * 3 := mul_le_mul (by omega) hk' hk (by omega)
    have h6 : 0 ≤ u.residue * k := mul_nonneg h2 hk
    unfold InInt; omega
  have hm : InInt (p : ℤ) := by unfold InInt; omega
  unfold IntMod.mulInt
  rw [show imul u.residue k = ok (u.residue * k) from chk_ok hi, ok_bind, h1]
  refine (IntMod.mk'_ok hp.out.pos hm hi).mono fun r hr => ?_
  have := hr
  rw [Int.cast_mul, h4] at this
  exact this

variable {a b c zero one : IntMod} {A B C : ZMod p} {P Q : Pt IntMod} {x y z x' y' z' : ZMod p}

theorem fp_check_eq (hb : p ≤ 46341) (ha : IntMod.Rep p a A) (hB : IntMod.Rep p b B) (hc : IntMod.Rep p c C) (hP : PRep p P x y z) :
    fp_check a b c P = if y ^ 2 = x ^ 3 - A * x ^ 2 - B * x + C then ok () else throw := by
  have hs : p ≤ 1073741824 := by omega
  obtain ⟨hx, hy, -⟩ := hP
  unfold fp_check
  obtain ⟨v1, e1, h1⟩ := IntMod.mul_ok hb hy hy
  obtain ⟨v2, e2, h2⟩ := IntMod.sub_ok hs hx ha
  obtain ⟨v3, e3, h3⟩ := IntMod.mul_ok hb hx h2
  obtain ⟨v4, e4, h4⟩ := IntMod.sub_ok hs h3 hB
  obtain ⟨v5, e5, h5⟩ := IntMod.mul_ok hb hx h4
  obtain ⟨v6, e6, h6⟩ := IntMod.sub_ok hs h1 h5
  obtain ⟨v7, e7, h7⟩ := IntMod.sub_ok hs h6 hc
  obtain ⟨v8, e8, h8⟩ := IntMod.sub_ok hs hy hy
  simp only [e1, e2, e3, e4, e5, e6, e7, e8, ok_bind, IntMod.eq_ok h7 h8]
  have : y * y - x * (x * (x - A) - B) - C = y - y ↔ y ^ 2 = x ^ 3 - A * x ^ 2 - B * x + C := by
    constructor <;> intro h <;> linear_combination h
  by_cases hh : y ^ 2 = x ^ 3 - A * x ^ 2 - B * x + C
  · rw [if_pos hh, if_pos (by simpa using this.2 hh)]
  · rw [if_neg hh, if_neg (by simpa using fun h => hh (this.1 h))]

theorem fp_third_ok (hb : p ≤ 46341) (ha : IntMod.Rep p a A) (ho : IntMod.Rep p one 1) (hP : PRep p P x y z) {u l : IntMod} {L : ZMod p}
    (hu : IntMod.Rep p u x') (hl : IntMod.Rep p l L) :
    (fp_third a one P u l).Ok fun R => PRep p R (L ^ 2 - A - x - x') (-(L * (L ^ 2 - A - x - x') + (y - L * x))) 1 := by
  have hs : p ≤ 1073741824 := by omega
  obtain ⟨hx, hy, -⟩ := hP
  unfold fp_third
  obtain ⟨v1, e1, h1⟩ := IntMod.mul_ok hb hl hx
  obtain ⟨v2, e2, h2⟩ := IntMod.sub_ok hs hy h1
  obtain ⟨v3, e3, h3⟩ := IntMod.mul_ok hb hl hl
  obtain ⟨v4, e4, h4⟩ := IntMod.sub_ok hs h3 ha
  obtain ⟨v5, e5, h5⟩ := IntMod.sub_ok hs h4 hx
  obtain ⟨v6, e6, h6⟩ := IntMod.sub_ok hs h5 hu
  obtain ⟨v7, e7, h7⟩ := IntMod.mul_ok hb hl h6
  obtain ⟨v8, e8, h8⟩ := IntMod.add_ok hs h7 h2
  obtain ⟨v9, e9, h9⟩ := IntMod.neg_ok (by unfold InInt; omega) h8
  simp only [e1, e2, e3, e4, e5, e6, e7, e8, e9, ok_bind, Ok_ok]
  rw [← pow_two] at h6 h9
  exact ⟨h6, h9, ho⟩

theorem fp_tangent_ok (hb : p ≤ 46341) (h2 : p ≠ 2) (ha : IntMod.Rep p a A) (hB : IntMod.Rep p b B) (hP : PRep p P x y z) (hy0 : y ≠ 0) :
    (fp_tangent a b P).Ok fun l => IntMod.Rep p l ((3 * x ^ 2 + 2 * A * x + B) / (2 * y)) := by
  have hs : p ≤ 1073741824 := by omega
  obtain ⟨hx, hy, -⟩ := hP
  unfold fp_tangent
  obtain ⟨v1, e1, h1⟩ := IntMod.mul_ok hb hx hx
  obtain ⟨v2, e2, h2'⟩ := mulInt_ok hb h1 (k := 3) (by norm_num) (by norm_num)
  obtain ⟨v3, e3, h3⟩ := IntMod.mul_ok hb ha hx
  obtain ⟨v4, e4, h4⟩ := mulInt_ok hb h3 (k := 2) (by norm_num) (by norm_num)
  obtain ⟨v5, e5, h5⟩ := IntMod.add_ok hs h2' h4
  obtain ⟨v6, e6, h6⟩ := IntMod.add_ok hs h5 hB
  obtain ⟨v7, e7, h7⟩ := mulInt_ok hb hy (k := 2) (by norm_num) (by norm_num)
  have h20 : (2 : ZMod p) ≠ 0 := by
    have : ((2 : ℕ) : ZMod p) ≠ 0 := by
      rw [Ne, ZMod.natCast_eq_zero_iff]
      intro h
      exact h2 ((Nat.prime_dvd_prime_iff_eq hp.out Nat.prime_two).1 h)
    exact_mod_cast this
  have hd : y * ((2 : ℤ) : ZMod p) ≠ 0 := mul_ne_zero hy0 (by exact_mod_cast h20)
  obtain ⟨v8, e8, ⟨q, h8, hq⟩, -⟩ := IntMod.div_ok hp.out.two_le hb IntMod.cacheOk_init h6 h7 (IsUnit.mk0 _ hd)
  simp only [e1, e2, e3, e4, e5, e6, e7, e8, ok_bind, Ok_ok]
  have : q = (3 * x ^ 2 + 2 * A * x + B) / (2 * y) := by
    rw [eq_div_iff (mul_ne_zero h20 hy0)]
    push_cast at hq
    linear_combination hq
  rw [← this]; exact h8

theorem fp_chord_ok (hb : p ≤ 46341) (hP : PRep p P x y z) (hQ : PRep p Q x' y' z') (hx0 : x ≠ x') :
    (fp_chord P Q).Ok fun l => IntMod.Rep p l ((y - y') / (x - x')) := by
  have hs : p ≤ 1073741824 := by omega
  obtain ⟨hx, hy, -⟩ := hP
  obtain ⟨hx', hy', -⟩ := hQ
  unfold fp_chord
  obtain ⟨v1, e1, h1⟩ := IntMod.sub_ok hs hy' hy
  obtain ⟨v2, e2, h2⟩ := IntMod.sub_ok hs hx' hx
  have hd : x' - x ≠ 0 := sub_ne_zero.2 (Ne.symm hx0)
  obtain ⟨v8, e8, ⟨q, h8, hq⟩, -⟩ := IntMod.div_ok hp.out.two_le hb IntMod.cacheOk_init h1 h2 (IsUnit.mk0 _ hd)
  simp only [e1, e2, e8, ok_bind, Ok_ok]
  have : q = (y - y') / (x - x') := by
    rw [eq_div_iff (sub_ne_zero.2 hx0)]
    linear_combination -hq
  rw [← this]; exact h8

open WeierstrassCurve in
/-- The curve of the formulas. -/
abbrev fpCurve (A B C : ZMod p) : WeierstrassCurve.Affine (ZMod p) := ⟨0, A, 0, B, C⟩

/-- The coordinates of a point as the program has them: (0, 1, 0), or (x, y, 1). -/
def Shows {F : Type} [CommRing F] {W : WeierstrassCurve.Affine F} {α : Type} (rep : α → F → Prop) (P : Pt α) : W.Point → Prop
  | .zero => rep P.x 0 ∧ rep P.y 1 ∧ rep P.z 0
  | .some x y _ => rep P.x x ∧ rep P.y y ∧ rep P.z 1

theorem eqO_ok (hz : IntMod.Rep p zero 0) (ho : IntMod.Rep p one 1) (hP : PRep p P x y z) :
    and3 (IntMod.eq P.x zero) (IntMod.eq P.y one) (IntMod.eq P.z zero) = ok (decide (x = 0 ∧ y = 1 ∧ z = 0)) := by
  rw [IntMod.eq_ok hP.1 hz, IntMod.eq_ok hP.2.1 ho, IntMod.eq_ok hP.2.2 hz, and3_ok]

theorem fp_sum_ok (hb : p ≤ 46341) (h2 : p ≠ 2) (ha : IntMod.Rep p a A) (hB : IntMod.Rep p b B)
    (hz : IntMod.Rep p zero 0) (ho : IntMod.Rep p one 1) {S T : (fpCurve A B C).Point} (hS : Shows (IntMod.Rep p) P S)
    (hT : Shows (IntMod.Rep p) Q T) : (fp_sum a b zero one P Q).Ok fun R => Shows (IntMod.Rep p) R (S + T) := by
  unfold fp_sum
  cases S with
  | zero =>
    rw [eqO_ok hz ho hS, ok_bind, if_pos (by simp)]
    exact (Ok_ok _ _).2 (by rw [show (WeierstrassCurve.Affine.Point.zero : (fpCurve A B C).Point) = 0 from rfl, zero_add]; exact hT)
  | some x y hxy =>
    have hS' : PRep p P x y 1 := hS
    rw [eqO_ok hz ho hS', ok_bind, if_neg (by simp)]
    cases T with
    | zero =>
      rw [eqO_ok hz ho hT, ok_bind, if_pos (by simp)]
      exact (Ok_ok _ _).2 (by rw [show (WeierstrassCurve.Affine.Point.zero : (fpCurve A B C).Point) = 0 from rfl, add_zero]; exact hS)
    | some x' y' hxy' =>
      have hT' : PRep p Q x' y' 1 := hT
      rw [eqO_ok hz ho hT', ok_bind, if_neg (by simp), IntMod.eq_ok hS'.1 hT'.1, IntMod.eq_ok hS'.2.1 hT'.2.1,
        IntMod.eq_ok hS'.2.2 hT'.2.2, and3_ok, ok_bind]
      have hO : Shows (IntMod.Rep p) ⟨zero, one, zero⟩ (0 : (fpCurve A B C).Point) := ⟨hz, ho, hz⟩
      by_cases hxx : x = x'
      · subst hxx
        by_cases hyy : y = y'
        · subst hyy
          rw [if_pos (by simp)]
          have hyr : IntMod.eqInt P.y 0 = ok (decide (y = 0)) := by
            unfold IntMod.eqInt
            rw [IntMod.check_modulus_ok hS'.2.1, ok_bind]
            congr 1
            have := hS'.2.1.eq_iff hz
            rw [Bool.eq_iff_iff]
            simp only [beq_iff_eq, decide_eq_true_eq]
            rw [← this]
            have hzr : zero.residue = 0 := by
              have := hz
              have h0 : IntMod.Rep p ⟨0, p⟩ 0 := ⟨rfl, le_refl _, by simpa using hp.out.pos, by simp⟩
              rw [IntMod.Rep.inj hz h0]
            rw [hzr]
          rw [hyr, ok_bind]
          by_cases hy0 : y = 0
          · subst hy0
            rw [if_pos (by simp), Ok_ok, WeierstrassCurve.Affine.Point.add_self_of_Y_eq (by simp [WeierstrassCurve.Affine.negY])]
            exact hO
          · rw [if_neg (by simpa using hy0)]
            have hne : y ≠ (fpCurve A B C).negY x y := by
              intro h
              simp only [WeierstrassCurve.Affine.negY] at h
              have h3 : (2 : ZMod p) * y = 0 := by linear_combination h
              have h20 : (2 : ZMod p) ≠ 0 := by
                have : ((2 : ℕ) : ZMod p) ≠ 0 := by
                  rw [Ne, ZMod.natCast_eq_zero_iff]
                  intro h
                  exact h2 ((Nat.prime_dvd_prime_iff_eq hp.out Nat.prime_two).1 h)
                exact_mod_cast this
              exact (mul_ne_zero h20 hy0) h3
            refine (fp_tangent_ok hb h2 ha hB hS' hy0).bind fun l hl => ?_
            refine (fp_third_ok hb ha ho hS' hS'.1 hl).mono fun R hR => ?_
            rw [WeierstrassCurve.Affine.Point.add_self_of_Y_ne hne]
            have hsl : (fpCurve A B C).slope x x y y = (3 * x ^ 2 + 2 * A * x + B) / (2 * y) := by
              rw [WeierstrassCurve.Affine.slope_of_Y_ne rfl hne]
              simp only [WeierstrassCurve.Affine.negY]
              congr 1 <;> ring
            refine ⟨?_, ?_, hR.2.2⟩
            · rw [hsl]
              simpa [WeierstrassCurve.Affine.addX] using hR.1
            · have := hR.2.1
              rw [hsl]
              simp only [WeierstrassCurve.Affine.addY, WeierstrassCurve.Affine.negY, WeierstrassCurve.Affine.negAddY, WeierstrassCurve.Affine.addX]
              convert this using 1
              ring
        · rw [if_neg (by simp [hyy]), ok_bind, if_pos (by simp), Ok_ok,
            WeierstrassCurve.Affine.Point.add_of_Y_eq rfl
              ((WeierstrassCurve.Affine.Y_eq_of_X_eq hxy.1 hxy'.1 rfl).resolve_left hyy)]
          exact hO
      · rw [if_neg (by simp [hxx]), ok_bind, if_neg (by simpa using hxx)]
        refine (fp_chord_ok hb hS' hT' hxx).bind fun l hl => ?_
        refine (fp_third_ok hb ha ho hS' hT'.1 hl).mono fun R hR => ?_
        rw [WeierstrassCurve.Affine.Point.add_of_X_ne hxx]
        have hsl := WeierstrassCurve.Affine.slope_of_X_ne (W := fpCurve A B C) (y₁ := y) (y₂ := y') hxx
        refine ⟨?_, ?_, hR.2.2⟩
        · rw [hsl]
          simpa [WeierstrassCurve.Affine.addX] using hR.1
        · have := hR.2.1
          rw [hsl]
          simp only [WeierstrassCurve.Affine.addY, WeierstrassCurve.Affine.negY, WeierstrassCurve.Affine.negAddY, WeierstrassCurve.Affine.addX]
          convert this using 1
          ring

def PRep3 {α F : Type} (rep : α → F → Prop) (P : Pt α) (t : F × F × F) : Prop := rep P.x t.1 ∧ rep P.y t.2.1 ∧ rep P.z t.2.2

theorem fp_on_eq (hb : p ≤ 46341) (ha : IntMod.Rep p a A) (hB : IntMod.Rep p b B) (hc : IntMod.Rep p c C) (hP : PRep p P x y z) :
    fp_on a b c P = ok (decide (y ^ 2 * z = x ^ 3 + A * x ^ 2 * z + B * x * z ^ 2 + C * z ^ 3)) := by
  have hs : p ≤ 1073741824 := by omega
  obtain ⟨hx, hy, hz⟩ := hP
  unfold fp_on
  obtain ⟨v1, e1, h1⟩ := IntMod.mul_ok hb hy hy
  obtain ⟨v2, e2, h2⟩ := IntMod.mul_ok hb h1 hz
  obtain ⟨v3, e3, h3⟩ := IntMod.mul_ok hb hx hx
  obtain ⟨v4, e4, h4⟩ := IntMod.mul_ok hb h3 hx
  obtain ⟨v5, e5, h5⟩ := IntMod.mul_ok hb ha hx
  obtain ⟨v6, e6, h6⟩ := IntMod.mul_ok hb h5 hx
  obtain ⟨v7, e7, h7⟩ := IntMod.mul_ok hb h6 hz
  obtain ⟨v8, e8, h8⟩ := IntMod.add_ok hs h4 h7
  obtain ⟨v9, e9, h9⟩ := IntMod.mul_ok hb hB hx
  obtain ⟨v10, e10, h10⟩ := IntMod.mul_ok hb h9 hz
  obtain ⟨v11, e11, h11⟩ := IntMod.mul_ok hb h10 hz
  obtain ⟨v12, e12, h12⟩ := IntMod.add_ok hs h8 h11
  obtain ⟨v13, e13, h13⟩ := IntMod.mul_ok hb hc hz
  obtain ⟨v14, e14, h14⟩ := IntMod.mul_ok hb h13 hz
  obtain ⟨v15, e15, h15⟩ := IntMod.mul_ok hb h14 hz
  obtain ⟨v16, e16, h16⟩ := IntMod.add_ok hs h12 h15
  simp only [e1, e2, e3, e4, e5, e6, e7, e8, e9, e10, e11, e12, e13, e14, e15, e16, ok_bind, IntMod.eq_ok h2 h16]
  congr 2
  rw [eq_iff_iff]
  constructor <;> intro h <;> linear_combination h

theorem fp_line_ok (hb : p ≤ 46341) (ha : IntMod.Rep p a A) (hB : IntMod.Rep p b B) (hc : IntMod.Rep p c C) (hP : PRep p P x y z)
    {out : List (Pt IntMod)} {O : List (ZMod p × ZMod p × ZMod p)} (h : List.Forall₂ (PRep3 (IntMod.Rep p)) out O) :
    (fp_line a b c P out).Ok fun o => List.Forall₂ (PRep3 (IntMod.Rep p)) o
      (O ++ if decide (y ^ 2 * z = x ^ 3 + A * x ^ 2 * z + B * x * z ^ 2 + C * z ^ 3) then [(x, y, z)] else []) := by
  unfold fp_line
  rw [fp_on_eq hb ha hB hc hP, ok_bind]
  split
  · rw [Ok_ok]
    exact List.rel_append h (.cons hP .nil)
  · rw [Ok_ok, List.append_nil]
    exact h

theorem fp_points_ok (hb : p ≤ 46341) (ha : IntMod.Rep p a A) (hB : IntMod.Rep p b B) (hc : IntMod.Rep p c C) :
    (fp_points_main p a b c).Ok fun o => List.Forall₂ (PRep3 (IntMod.Rep p)) o
      (table (fun x y => decide (y ^ 2 = x ^ 3 + A * x ^ 2 + B * x + C)) ((List.range p).map fun n : ℕ => (n : ZMod p))) := by
  have hm : InInt (p : ℤ) := by unfold InInt; omega
  have hp1 : 1 < p := hp.out.one_lt
  have hmk : ∀ n : ℕ, n ≤ p → (IntMod.mk' n p).Ok fun r => IntMod.Rep p r (n : ZMod p) := fun n hn => by
    have := IntMod.mk'_ok (r := n) hp.out.pos hm (by unfold InInt; omega)
    simpa using this
  set xs := (List.range p).map fun n : ℕ => (n : ZMod p) with hxs
  have hlen : xs.length = p := by simp [hxs]
  have hget : ∀ (i : ℕ) (x : ZMod p), xs[i]? = some x → i < p ∧ x = (i : ZMod p) := by
    intro i x h
    rw [hxs, List.getElem?_map] at h
    have hi : i < p := by
      by_contra hc
      rw [List.getElem?_eq_none (by simpa using hc)] at h
      cases h
    rw [List.getElem?_range hi] at h
    simp only [Option.map_some, Option.some.injEq] at h
    exact ⟨hi, h.symm⟩
  have hnd : xs.Nodup := by
    rw [hxs]
    refine List.Nodup.map_on ?_ List.nodup_range
    intro u hu v hv h
    rw [List.mem_range] at hu hv
    rw [ZMod.natCast_eq_natCast_iff] at h
    exact Nat.ModEq.eq_of_lt_of_lt h hu hv
  have h0 : (0 : ZMod p) ∈ xs := by
    rw [hxs, List.mem_map]
    exact ⟨0, List.mem_range.2 hp.out.pos, by simp⟩
  unfold fp_points_main
  obtain ⟨one, e1, h1⟩ := hmk 1 hp1.le
  obtain ⟨zero, e2, h2⟩ := hmk 0 (Nat.zero_le _)
  rw [Nat.cast_one] at e1 h1
  rw [Nat.cast_zero] at e2 h2
  rw [e1, ok_bind, e2, ok_bind]
  refine (lines_ok (R := PRep3 (IntMod.Rep p)) (g := fun x => if decide (x = 0) then [(x, 1, 0)] else []) hlen (fun i x hx out O hO => ?_) .nil).bind
    fun o ho => ?_
  · obtain ⟨hi, rfl⟩ := hget i x hx
    refine (hmk i hi.le).bind fun v hv => ?_
    refine (fp_line_ok hb ha hB hc (P := ⟨v, one, zero⟩) ⟨hv, h1, h2⟩ hO).mono fun o ho => ?_
    convert ho using 5
    simp only [mul_zero, add_zero, ne_eq, OfNat.ofNat_ne_zero, not_false_eq_true, zero_pow]
    rw [eq_comm (a := (0 : ZMod p)) (b := (i : ZMod p) ^ 3), pow_eq_zero_iff (by norm_num)]
  rw [List.nil_append, flatMap_ite, filter_zero hnd h0] at ho
  refine (fp_line_ok hb ha hB hc (P := ⟨one, zero, zero⟩) ⟨h1, h2, h2⟩ ho).bind fun o ho => ?_
  rw [if_neg (by simp), List.append_nil] at ho
  refine (lines_ok (R := PRep3 (IntMod.Rep p)) (g := fun x => (xs.filter fun y => decide (y ^ 2 = x ^ 3 + A * x ^ 2 + B * x + C)).map fun y => (x, y, 1))
    hlen (fun i x hx out O hO => ?_) ho).mono fun o ho => ho
  obtain ⟨hi, rfl⟩ := hget i x hx
  refine (hmk i hi.le).bind fun v hv => ?_
  rw [← flatMap_ite]
  refine lines_ok hlen (fun j y hy out O hO => ?_) hO
  obtain ⟨hj, rfl⟩ := hget j y hy
  refine (hmk j hj.le).bind fun w hw => ?_
  refine (fp_line_ok hb ha hB hc (P := ⟨v, w, one⟩) ⟨hv, hw, h1⟩ hO).mono fun o ho => ?_
  convert ho using 5
  simp

end fp
/-! ### Residues of bit polynomials -/

section ft
open Polynomial WeierstrassCurve.Affine
variable {m : (ZMod 2)[X]} [hm : Fact (Irreducible m)] [DecidableEq (AdjoinRoot m)]
variable {a1 a2 a3 a4 a6 zero one : F2Mod} {A1 A2 A3 A4 A6 : AdjoinRoot m} {P Q : Pt F2Mod} {x y z x' y' z' : AdjoinRoot m}

theorem two_zero : (2 : AdjoinRoot m) = 0 := by
  rw [← map_ofNat (AdjoinRoot.mk m) 2]
  have : (2 : (ZMod 2)[X]) = 0 := by
    have h : ((2 : ZMod 2)) = 0 := by decide
    rw [← C_ofNat, h, C_0]
  rw [this, map_zero]

theorem neg_self (u : AdjoinRoot m) : -u = u := by linear_combination (-u) * two_zero (m := m)

theorem fdiv_ok {u d : F2Mod} {U D : AdjoinRoot m} (hu : F2Mod.Rep m u U) (hd : F2Mod.Rep m d D) (h0 : D ≠ 0) :
    (F2Mod.div u d).Ok fun r => F2Mod.Rep m r (U / D) := by
  refine (F2Mod.div_ok hu hd (mul_inv_cancel₀ h0)).mono fun r hr => ?_
  rwa [← div_eq_mul_inv] at hr

theorem ft_check_eq (r1 : F2Mod.Rep m a1 A1) (r2 : F2Mod.Rep m a2 A2) (r3 : F2Mod.Rep m a3 A3) (r4 : F2Mod.Rep m a4 A4) (r6 : F2Mod.Rep m a6 A6)
    (hP : PRep3 (F2Mod.Rep m) P (x, y, z)) : ft_check a1 a2 a3 a4 a6 P =
      if (y * y + A1 * x * y + A3 * y * z) * z + x * (x * (x + A2 * z) + A4 * z) + A6 * z = 0 then ok () else throw := by
  have hx : F2Mod.Rep m P.x x := hP.1
  have hy : F2Mod.Rep m P.y y := hP.2.1
  have hz : F2Mod.Rep m P.z z := hP.2.2
  unfold ft_check
  obtain ⟨v1, e1, h1⟩ := F2Mod.mul_ok hy hy
  obtain ⟨v2, e2, h2⟩ := F2Mod.mul_ok r1 hx
  obtain ⟨v3, e3, h3⟩ := F2Mod.mul_ok h2 hy
  obtain ⟨v4, e4, h4⟩ := F2Mod.add_ok h1 h3
  obtain ⟨v5, e5, h5⟩ := F2Mod.mul_ok r3 hy
  obtain ⟨v6, e6, h6⟩ := F2Mod.mul_ok h5 hz
  obtain ⟨v7, e7, h7⟩ := F2Mod.add_ok h4 h6
  obtain ⟨v8, e8, h8⟩ := F2Mod.mul_ok h7 hz
  obtain ⟨v9, e9, h9⟩ := F2Mod.mul_ok r2 hz
  obtain ⟨v10, e10, h10⟩ := F2Mod.add_ok hx h9
  obtain ⟨v11, e11, h11⟩ := F2Mod.mul_ok hx h10
  obtain ⟨v12, e12, h12⟩ := F2Mod.mul_ok r4 hz
  obtain ⟨v13, e13, h13⟩ := F2Mod.add_ok h11 h12
  obtain ⟨v14, e14, h14⟩ := F2Mod.mul_ok hx h13
  obtain ⟨v15, e15, h15⟩ := F2Mod.add_ok h8 h14
  obtain ⟨v16, e16, h16⟩ := F2Mod.mul_ok r6 hz
  obtain ⟨v17, e17, h17⟩ := F2Mod.add_ok h15 h16
  obtain ⟨v18, e18, h18⟩ := F2Mod.sub_ok hy hy
  simp only [e1, e2, e3, e4, e5, e6, e7, e8, e9, e10, e11, e12, e13, e14, e15, e16, e17, e18, ok_bind, F2Mod.eq_ok h17 h18]
  simp only [sub_self, decide_eq_true_eq]

theorem ft_third_ok (r1 : F2Mod.Rep m a1 A1) (r2 : F2Mod.Rep m a2 A2) (r3 : F2Mod.Rep m a3 A3) (ho : F2Mod.Rep m one 1)
    (hx : F2Mod.Rep m P.x x) (hx' : F2Mod.Rep m Q.x x') {l n : F2Mod} {L N : AdjoinRoot m} (hl : F2Mod.Rep m l L) (hn : F2Mod.Rep m n N) :
    (ft_third a1 a2 a3 one P Q l n).Ok fun R => PRep3 (F2Mod.Rep m) R
      (L * L + A1 * L + A2 + x + x', (L + A1) * (L * L + A1 * L + A2 + x + x') + N + A3, 1) := by
  unfold ft_third
  obtain ⟨v1, e1, h1⟩ := F2Mod.mul_ok hl hl
  obtain ⟨v2, e2, h2⟩ := F2Mod.mul_ok r1 hl
  obtain ⟨v3, e3, h3⟩ := F2Mod.add_ok h1 h2
  obtain ⟨v4, e4, h4⟩ := F2Mod.add_ok h3 r2
  obtain ⟨v5, e5, h5⟩ := F2Mod.add_ok h4 hx
  obtain ⟨v6, e6, h6⟩ := F2Mod.add_ok h5 hx'
  obtain ⟨v7, e7, h7⟩ := F2Mod.add_ok hl r1
  obtain ⟨v8, e8, h8⟩ := F2Mod.mul_ok h7 h6
  obtain ⟨v9, e9, h9⟩ := F2Mod.add_ok h8 hn
  obtain ⟨v10, e10, h10⟩ := F2Mod.add_ok h9 r3
  simp only [e1, e2, e3, e4, e5, e6, e7, e8, e9, e10, ok_bind, Ok_ok]
  exact ⟨h6, h10, ho⟩

theorem ft_tangent_den (r1 : F2Mod.Rep m a1 A1) (r3 : F2Mod.Rep m a3 A3) (r4 : F2Mod.Rep m a4 A4) (hx : F2Mod.Rep m P.x x)
    (hy : F2Mod.Rep m P.y y) : ∃ u v d, ft_tangent a1 a3 a4 P = F2Mod.div u d ∧ ft_tangent_nu a1 a3 a4 P = F2Mod.div v d ∧
      F2Mod.Rep m u (x * x + A4 + A1 * y) ∧ F2Mod.Rep m v (x * x * x + A4 * x + A3 * y) ∧ F2Mod.Rep m d (A1 * x + A3) := by
  unfold ft_tangent ft_tangent_nu
  obtain ⟨v1, e1, h1⟩ := F2Mod.mul_ok hx hx
  obtain ⟨v2, e2, h2⟩ := F2Mod.add_ok h1 r4
  obtain ⟨v3, e3, h3⟩ := F2Mod.mul_ok r1 hy
  obtain ⟨v4, e4, h4⟩ := F2Mod.add_ok h2 h3
  obtain ⟨v5, e5, h5⟩ := F2Mod.mul_ok r1 hx
  obtain ⟨v6, e6, h6⟩ := F2Mod.add_ok h5 r3
  obtain ⟨v7, e7, h7⟩ := F2Mod.mul_ok h1 hx
  obtain ⟨v8, e8, h8⟩ := F2Mod.mul_ok r4 hx
  obtain ⟨v9, e9, h9⟩ := F2Mod.add_ok h7 h8
  obtain ⟨v10, e10, h10⟩ := F2Mod.mul_ok r3 hy
  obtain ⟨v11, e11, h11⟩ := F2Mod.add_ok h9 h10
  simp only [e1, e2, e3, e4, e5, e6, e7, e8, e9, e10, e11, ok_bind]
  exact ⟨_, _, _, rfl, rfl, h4, h11, h6⟩

theorem ft_chord_ok (hx : F2Mod.Rep m P.x x) (hy : F2Mod.Rep m P.y y) (hx' : F2Mod.Rep m Q.x x') (hy' : F2Mod.Rep m Q.y y') (h0 : x' + x ≠ 0) :
    (ft_chord P Q).Ok (fun r => F2Mod.Rep m r ((y' + y) / (x' + x))) ∧
    (ft_chord_nu P Q).Ok (fun r => F2Mod.Rep m r ((y * x' + y' * x) / (x' + x))) := by
  unfold ft_chord ft_chord_nu
  obtain ⟨v1, e1, h1⟩ := F2Mod.add_ok hy' hy
  obtain ⟨v2, e2, h2⟩ := F2Mod.add_ok hx' hx
  obtain ⟨v3, e3, h3⟩ := F2Mod.mul_ok hy hx'
  obtain ⟨v4, e4, h4⟩ := F2Mod.mul_ok hy' hx
  obtain ⟨v5, e5, h5⟩ := F2Mod.add_ok h3 h4
  simp only [e1, e2, e3, e4, e5, ok_bind]
  exact ⟨fdiv_ok h1 h2 h0, fdiv_ok h5 h2 h0⟩

/-- The curve of the usage message. -/
abbrev ftCurve (A1 A2 A3 A4 A6 : AdjoinRoot m) : WeierstrassCurve.Affine (AdjoinRoot m) := ⟨A1, A2, A3, A4, A6⟩

theorem ft_eqO (hz : F2Mod.Rep m zero 0) (ho : F2Mod.Rep m one 1) (hP : PRep3 (F2Mod.Rep m) P (x, y, z)) :
    and3 (F2Mod.eq P.x zero) (F2Mod.eq P.y one) (F2Mod.eq P.z zero) = ok (decide (x = 0 ∧ y = 1 ∧ z = 0)) := by
  rw [F2Mod.eq_ok hP.1 hz, F2Mod.eq_ok hP.2.1 ho, F2Mod.eq_ok hP.2.2 hz, and3_ok]

theorem ft_sum_ok (r1 : F2Mod.Rep m a1 A1) (r2 : F2Mod.Rep m a2 A2) (r3 : F2Mod.Rep m a3 A3) (r4 : F2Mod.Rep m a4 A4)
    (hz : F2Mod.Rep m zero 0) (ho : F2Mod.Rep m one 1) {S T : (ftCurve A1 A2 A3 A4 A6).Point} (hS : Shows (F2Mod.Rep m) P S)
    (hT : Shows (F2Mod.Rep m) Q T) :
    (S = T ∧ S ≠ 0 ∧ S + S = 0 → ft_sum a1 a2 a3 a4 zero one P Q = throw) ∧
    (¬ (S = T ∧ S ≠ 0 ∧ S + S = 0) → (ft_sum a1 a2 a3 a4 zero one P Q).Ok fun R => Shows (F2Mod.Rep m) R (S + T)) := by
  unfold ft_sum
  cases S with
  | zero =>
    rw [ft_eqO hz ho hS, ok_bind, if_pos (by simp)]
    refine ⟨fun h => absurd rfl h.2.1, fun _ => ?_⟩
    exact (Ok_ok _ _).2 (by rw [show (Point.zero : (ftCurve A1 A2 A3 A4 A6).Point) = 0 from rfl, zero_add]; exact hT)
  | some x y hxy =>
    have hS' : PRep3 (F2Mod.Rep m) P (x, y, 1) := hS
    rw [ft_eqO hz ho hS', ok_bind, if_neg (by simp)]
    cases T with
    | zero =>
      rw [ft_eqO hz ho hT, ok_bind, if_pos (by simp)]
      refine ⟨fun h => absurd h.1 (by simp), fun _ => ?_⟩
      exact (Ok_ok _ _).2 (by rw [show (Point.zero : (ftCurve A1 A2 A3 A4 A6).Point) = 0 from rfl, add_zero]; exact hS)
    | some x' y' hxy' =>
      have hT' : PRep3 (F2Mod.Rep m) Q (x', y', 1) := hT
      rw [ft_eqO hz ho hT', ok_bind, if_neg (by simp), F2Mod.eq_ok hS'.1 hT'.1, F2Mod.eq_ok hS'.2.1 hT'.2.1,
        F2Mod.eq_ok hS'.2.2 hT'.2.2, and3_ok, ok_bind]
      have hO : Shows (F2Mod.Rep m) ⟨zero, one, zero⟩ (0 : (ftCurve A1 A2 A3 A4 A6).Point) := ⟨hz, ho, hz⟩
      by_cases hxx : x = x'
      · subst hxx
        by_cases hyy : y = y'
        · subst hyy
          rw [if_pos (by simp)]
          obtain ⟨u, v, d, e1, e2, hu, hv, hd⟩ := ft_tangent_den r1 r3 r4 hS'.1 hS'.2.1
          have hden : y - (ftCurve A1 A2 A3 A4 A6).negY x y = A1 * x + A3 := by
            simp only [negY]
            linear_combination y * two_zero (m := m)
          rw [e1, e2]
          by_cases h0 : A1 * x + A3 = 0
          · have hneg : y = (ftCurve A1 A2 A3 A4 A6).negY x y := by rw [h0] at hden; exact sub_eq_zero.1 hden
            have hadd := Point.add_self_of_Y_eq (h₁ := hxy) hneg
            refine ⟨fun _ => ?_, fun h => absurd ⟨rfl, Point.some_ne_zero _, hadd⟩ h⟩
            rw [F2Mod.div_throw hu hd (by rw [h0]; exact not_isUnit_zero)]; rfl
          · have hne : y ≠ (ftCurve A1 A2 A3 A4 A6).negY x y := fun h => h0 (by rw [← hden]; exact sub_eq_zero.2 h)
            refine ⟨fun h => ?_, fun _ => ?_⟩
            · have := h.2.2
              rw [Point.add_self_of_Y_ne hne] at this
              exact absurd this (Point.some_ne_zero _)
            refine (fdiv_ok hu hd h0).bind fun l hl => (fdiv_ok hv hd h0).bind fun n hn => ?_
            refine (ft_third_ok r1 r2 r3 ho hS'.1 hT'.1 hl hn).mono fun R hR => ?_
            rw [Point.add_self_of_Y_ne hne]
            have hsl : (ftCurve A1 A2 A3 A4 A6).slope x x y y = (x * x + A4 + A1 * y) / (A1 * x + A3) := by
              rw [slope_of_Y_ne rfl hne, hden]
              congr 1
              linear_combination (x ^ 2 + A2 * x - A1 * y) * two_zero (m := m)
            have hN : (x * x * x + A4 * x + A3 * y) / (A1 * x + A3) = (x * x + A4 + A1 * y) / (A1 * x + A3) * x + y := by
              rw [div_mul_eq_mul_div, div_add' _ _ _ h0]
              congr 1
              linear_combination (-(A1 * x * y)) * two_zero (m := m)
            rw [hN] at hR
            set L := (x * x + A4 + A1 * y) / (A1 * x + A3) with hL
            refine ⟨?_, ?_, hR.2.2⟩
            · rw [hsl]
              have : (ftCurve A1 A2 A3 A4 A6).addX x x L = L * L + A1 * L + A2 + x + x := by
                simp only [addX]
                linear_combination (-(A2 + x + x)) * two_zero (m := m)
              rw [this]; exact hR.1
            · rw [hsl]
              have : (ftCurve A1 A2 A3 A4 A6).addY x x y L = (L + A1) * (L * L + A1 * L + A2 + x + x) + (L * x + y) + A3 := by
                simp only [addX, addY, negY, negAddY]
                linear_combination (-A3 - y - A1 * L ^ 2 - A1 ^ 2 * L - L ^ 3 - A1 * L ^ 2) * two_zero (m := m)
              rw [this]; exact hR.2.1
        · rw [if_neg (by simp [hyy]), ok_bind, if_pos (by simp), Ok_ok,
            Point.add_of_Y_eq rfl ((Y_eq_of_X_eq hxy.1 hxy'.1 rfl).resolve_left hyy)]
          exact ⟨fun h => absurd (by simpa using h.1) hyy, fun _ => hO⟩
      · rw [if_neg (by simp [hxx]), ok_bind, if_neg (by simpa using hxx)]
        refine ⟨fun h => absurd (by have := h.1; simp only [Point.some.injEq] at this; exact this.1) hxx, fun _ => ?_⟩
        have h0 : x' + x ≠ 0 := fun h => hxx (by linear_combination h - x' * two_zero (m := m))
        obtain ⟨hc, hc'⟩ := ft_chord_ok hS'.1 hS'.2.1 hT'.1 hT'.2.1 h0
        refine hc.bind fun l hl => hc'.bind fun n hn => ?_
        refine (ft_third_ok r1 r2 r3 ho hS'.1 hT'.1 hl hn).mono fun R hR => ?_
        rw [Point.add_of_X_ne hxx]
        have hsl : (ftCurve A1 A2 A3 A4 A6).slope x x' y y' = (y' + y) / (x' + x) := by
          rw [slope_of_X_ne hxx]
          congr 1
          · linear_combination (-y') * two_zero (m := m)
          · linear_combination (-x') * two_zero (m := m)
        have hN : (y * x' + y' * x) / (x' + x) = (y' + y) / (x' + x) * x + y := by
          field_simp
          linear_combination (-(x * y)) * two_zero (m := m)
        rw [hN] at hR
        set L := (y' + y) / (x' + x) with hL
        refine ⟨?_, ?_, hR.2.2⟩
        · rw [hsl]
          have : (ftCurve A1 A2 A3 A4 A6).addX x x' L = L * L + A1 * L + A2 + x + x' := by
            simp only [addX]
            linear_combination (-(A2 + x + x')) * two_zero (m := m)
          rw [this]; exact hR.1
        · rw [hsl]
          have : (ftCurve A1 A2 A3 A4 A6).addY x x' y L = (L + A1) * (L * L + A1 * L + A2 + x + x') + (L * x + y) + A3 := by
            simp only [addX, addY, negY, negAddY]
            linear_combination (-A3 - y - A1 * L ^ 2 - A1 ^ 2 * L - L ^ 3 - A1 * L ^ 2) * two_zero (m := m)
          rw [this]; exact hR.2.1

theorem ft_on_eq (r1 : F2Mod.Rep m a1 A1) (r2 : F2Mod.Rep m a2 A2) (r3 : F2Mod.Rep m a3 A3) (r4 : F2Mod.Rep m a4 A4) (r6 : F2Mod.Rep m a6 A6)
    (hP : PRep3 (F2Mod.Rep m) P (x, y, z)) : ft_on a1 a2 a3 a4 a6 P = ok (decide (y * y * z + A1 * x * y * z + A3 * y * z * z =
      x * x * x + A2 * x * x * z + A4 * x * z * z + A6 * z * z * z)) := by
  have hx : F2Mod.Rep m P.x x := hP.1
  have hy : F2Mod.Rep m P.y y := hP.2.1
  have hz : F2Mod.Rep m P.z z := hP.2.2
  unfold ft_on
  obtain ⟨v1, e1, h1⟩ := F2Mod.mul_ok hy hy
  obtain ⟨v2, e2, h2⟩ := F2Mod.mul_ok h1 hz
  obtain ⟨v3, e3, h3⟩ := F2Mod.mul_ok r1 hx
  obtain ⟨v4, e4, h4⟩ := F2Mod.mul_ok h3 hy
  obtain ⟨v5, e5, h5⟩ := F2Mod.mul_ok h4 hz
  obtain ⟨v6, e6, h6⟩ := F2Mod.add_ok h2 h5
  obtain ⟨v7, e7, h7⟩ := F2Mod.mul_ok r3 hy
  obtain ⟨v8, e8, h8⟩ := F2Mod.mul_ok h7 hz
  obtain ⟨v9, e9, h9⟩ := F2Mod.mul_ok h8 hz
  obtain ⟨v10, e10, h10⟩ := F2Mod.add_ok h6 h9
  obtain ⟨w1, f1, g1⟩ := F2Mod.mul_ok hx hx
  obtain ⟨w2, f2, g2⟩ := F2Mod.mul_ok g1 hx
  obtain ⟨w3, f3, g3⟩ := F2Mod.mul_ok r2 hx
  obtain ⟨w4, f4, g4⟩ := F2Mod.mul_ok g3 hx
  obtain ⟨w5, f5, g5⟩ := F2Mod.mul_ok g4 hz
  obtain ⟨w6, f6, g6⟩ := F2Mod.add_ok g2 g5
  obtain ⟨w7, f7, g7⟩ := F2Mod.mul_ok r4 hx
  obtain ⟨w8, f8, g8⟩ := F2Mod.mul_ok g7 hz
  obtain ⟨w9, f9, g9⟩ := F2Mod.mul_ok g8 hz
  obtain ⟨w10, f10, g10⟩ := F2Mod.add_ok g6 g9
  obtain ⟨w11, f11, g11⟩ := F2Mod.mul_ok r6 hz
  obtain ⟨w12, f12, g12⟩ := F2Mod.mul_ok g11 hz
  obtain ⟨w13, f13, g13⟩ := F2Mod.mul_ok g12 hz
  obtain ⟨w14, f14, g14⟩ := F2Mod.add_ok g10 g13
  simp only [e1, e2, e3, e4, e5, e6, e7, e8, e9, e10, f1, f2, f3, f4, f5, f6, f7, f8, f9, f10, f11, f12, f13, f14, ok_bind,
    F2Mod.eq_ok h10 g14]

theorem ft_line_ok (r1 : F2Mod.Rep m a1 A1) (r2 : F2Mod.Rep m a2 A2) (r3 : F2Mod.Rep m a3 A3) (r4 : F2Mod.Rep m a4 A4) (r6 : F2Mod.Rep m a6 A6)
    (hP : PRep3 (F2Mod.Rep m) P (x, y, z)) {E : Bool} (hE : decide (y * y * z + A1 * x * y * z + A3 * y * z * z =
      x * x * x + A2 * x * x * z + A4 * x * z * z + A6 * z * z * z) = E)
    {out : List (Pt F2Mod)} {O : List (AdjoinRoot m × AdjoinRoot m × AdjoinRoot m)} (h : List.Forall₂ (PRep3 (F2Mod.Rep m)) out O) :
    (ft_line a1 a2 a3 a4 a6 P out).Ok fun o => List.Forall₂ (PRep3 (F2Mod.Rep m)) o (O ++ if E then [(x, y, z)] else []) := by
  unfold ft_line
  rw [ft_on_eq r1 r2 r3 r4 r6 hP, ok_bind, hE]
  split
  · rw [Ok_ok]
    exact List.rel_append h (.cons hP .nil)
  · rw [Ok_ok, List.append_nil]
    exact h

theorem ft_points_ok {tm : TrimMask} {mm : F2P} (hmc : F2P.Canon mm) (hmm : F2P.toPoly mm = m) (hd : m.natDegree ≤ 30)
    (r1 : F2Mod.Rep m a1 A1) (r2 : F2Mod.Rep m a2 A2) (r3 : F2Mod.Rep m a3 A3) (r4 : F2Mod.Rep m a4 A4) (r6 : F2Mod.Rep m a6 A6) :
    (ft_points_main tm mm a1 a2 a3 a4 a6).Ok fun o => ∃ xs : List (AdjoinRoot m), xs.Nodup ∧ (∀ x, x ∈ xs) ∧ List.Forall₂ (PRep3 (F2Mod.Rep m)) o
        (table (fun x y => decide (y ^ 2 + A1 * x * y + A3 * y = x ^ 3 + A2 * x ^ 2 + A4 * x + A6)) xs) := by
  have hm0 : m ≠ 0 := hm.out.ne_zero
  unfold ft_points_main
  refine (Lists.f2_all_ok (tm := tm) hmc hmm hm0 hd).bind fun fq ⟨⟨xs, hfx, hnd, hall⟩, _⟩ => ?_
  obtain ⟨zero, e1, h1⟩ : ∃ r, F2Mod.prime_subfield_element 0 mm = ok r ∧ F2Mod.Rep m r 0 := by
    obtain ⟨r, e, h, -⟩ := F2Mod.mk'_ok F2P.canon_zero.good hmc hmm hm0
    exact ⟨r, e, by simpa using h⟩
  obtain ⟨one, e2, h2⟩ : ∃ r, F2Mod.prime_subfield_element 1 mm = ok r ∧ F2Mod.Rep m r 1 := by
    obtain ⟨r, e, h, -⟩ := F2Mod.mk'_ok F2P.canon_one.good hmc hmm hm0
    exact ⟨r, e, by simpa using h⟩
  rw [e1, ok_bind, e2, ok_bind]
  have hlen : xs.length = fq.length := hfx.length_eq.symm
  have hget : ∀ (i : ℕ) (x : AdjoinRoot m), xs[i]? = some x → ∃ v, rd fq i = ok v ∧ F2Mod.Rep m v x := by
    intro i x h
    obtain ⟨hi, rfl⟩ := List.getElem?_eq_some_iff.1 h
    have hi' : i < fq.length := hlen ▸ hi
    exact ⟨_, rd_ok hi', hfx.get hi' hi⟩
  refine (lines_ok (R := PRep3 (F2Mod.Rep m)) (g := fun x => if decide (x = 0) then [(x, 1, 0)] else []) hlen (fun i x hx out O hO => ?_) .nil).bind
    fun o ho => ?_
  · obtain ⟨v, ev, hv⟩ := hget i x hx
    rw [ev, ok_bind]
    refine ft_line_ok r1 r2 r3 r4 r6 (P := ⟨v, one, zero⟩) ⟨hv, h2, h1⟩ ?_ hO
    rw [decide_eq_decide]
    constructor
    · intro h
      have : x ^ 3 = 0 := by linear_combination -h
      exact (pow_eq_zero_iff (by norm_num)).1 this
    · rintro rfl; ring
  rw [List.nil_append, flatMap_ite, filter_zero hnd ((hall 0).2 trivial)] at ho
  refine (ft_line_ok r1 r2 r3 r4 r6 (P := ⟨one, zero, zero⟩) (E := false) ⟨h2, h1, h1⟩ (by simp) ho).bind fun o ho => ?_
  rw [if_neg (by simp), List.append_nil] at ho
  refine (lines_ok (R := PRep3 (F2Mod.Rep m)) (g := fun x => (xs.filter fun y => decide (y ^ 2 + A1 * x * y + A3 * y =
    x ^ 3 + A2 * x ^ 2 + A4 * x + A6)).map fun y => (x, y, 1)) hlen (fun i x hx out O hO => ?_) ho).mono
    fun o ho => ⟨xs, hnd, fun x => (hall x).2 trivial, ho⟩
  rw [← flatMap_ite]
  refine lines_ok hlen (fun j y hy out O hO => ?_) hO
  obtain ⟨v, ev, hv⟩ := hget i x hx
  obtain ⟨w, ew, hw⟩ := hget j y hy
  rw [ev, ok_bind, ew, ok_bind]
  refine ft_line_ok r1 r2 r3 r4 r6 (P := ⟨v, w, one⟩) ⟨hv, hw, h2⟩ ?_ hO
  rw [decide_eq_decide]
  constructor <;> intro h <;> linear_combination h

end ft

end Elliptic
end Spffl
