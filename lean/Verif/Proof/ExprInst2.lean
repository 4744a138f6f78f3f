import Verif.Proof.ExprInst
import Verif.Proof.PolyRat
import Verif.Proof.VecText
import Verif.Proof.F2Text
import Verif.Model.ExprInst2

/-!
# The calculators for polynomials and for residues of polynomials
-/

namespace Spffl.Expr
open Res CPoly Polynomial VText

/-! ### Division -/

open Classical in
/-- Division of polynomials with remainder. -/
noncomputable def polySem (K : Type) [Field K] : Sem K[X] where
  dv f g := if g = 0 then none else some (f / g)
  md f g := if g = 0 then none else some (f % g)

open Classical in
/-- Division by the units of a ring; the remainder is zero. -/
noncomputable def unitSem (R : Type) [CommRing R] : Sem R where
  dv x y := if IsUnit y then some (x * Ring.inverse y) else none
  md _ y := if IsUnit y then some 0 else none

/-! ### Polynomials over a field -/

section CPolyRef
variable {α K : Type} [Field K] {U : Prop} {O : CoefOps α} {rep : α → K → Prop} {ord : K → K → Prop}

theorem quot_eq {a b q r : K[X]} (h : a = q * b + r) (hr : r.degree < b.degree) : q = a / b ∧ r = a % b := by
  have hb : b ≠ 0 := by rintro rfl; simp at hr
  have h2 := EuclideanDomain.div_add_mod a b
  have hq : q = a / b := by
    by_contra hne
    have e : b * (q - a / b) = a % b - r := by linear_combination -h - h2
    have hd : (b * (q - a / b)).degree < b.degree := by
      rw [e]
      exact lt_of_le_of_lt (degree_sub_le _ _) (max_lt (EuclideanDomain.mod_lt _ hb) hr)
    have h0 : b * (q - a / b) = 0 := eq_zero_of_dvd_of_degree_lt (dvd_mul_right _ _) hd
    rcases mul_eq_zero.1 h0 with h0 | h0
    · exact hb h0
    · exact hne (sub_eq_zero.1 h0)
  refine ⟨hq, ?_⟩
  rw [← hq] at h2
  linear_combination -h - h2

theorem ng_sat (H : CoefRef U O rep ord) {a : CPoly α} {f : K[X]} (ha : PRep rep a f) :
    (do let z ← CPoly.sub O a a; CPoly.sub O z a).Sat U (fun r => PRep rep r (-f)) := by
  refine (CPoly.sub_sat H ha ha).bind fun z hz => ?_
  rw [sub_self] at hz
  simpa using CPoly.sub_sat H hz ha

theorem _root_.Spffl.CoefRef.weaken (H : CoefRef False O rep ord) (U : Prop) : CoefRef U O rep ord where
  add h h' := (sat_false.1 (H.add h h')).sat
  sub h h' := (sat_false.1 (H.sub h h')).sat
  mul h h' := (sat_false.1 (H.mul h h')).sat
  neg h := (sat_false.1 (H.neg h)).sat
  div h h' hz := (sat_false.1 (H.div h h' hz)).sat
  div_throw h h' hu := .inl (throws_false.1 (H.div_throw h h' hu))
  eq h h' := (sat_false.1 (H.eq h h')).sat
  lt h h' := (sat_false.1 (H.lt h h')).sat
  gt h h' := (sat_false.1 (H.gt h h')).sat
  psub v hv h := (sat_false.1 (H.psub v hv h)).sat
  recip h hx := (sat_false.1 (H.recip h hx)).sat
  isZero h := (sat_false.1 (H.isZero h)).sat
  irrefl := H.irrefl
  asymm := H.asymm
  total := H.total

/-- Unary minus of a polynomial of positive degree is undefined. -/
theorem neg_ub (H : CoefRef True O rep ord) {a : CPoly α} {f : K[X]} (ha : PRep rep a f) (h0 : 0 < a.degree) :
    CPoly.neg O a = ub := by
  obtain ⟨n, hn⟩ : ∃ n, a.degree + 1 - 0 = n + 2 := ⟨a.degree - 1, by omega⟩
  obtain ⟨e0, he0, hr0⟩ := (ha.co 0 (by omega)).rd
  obtain ⟨e1, he1, hr1⟩ := (ha.co 1 (by omega)).rd
  have h : (CPoly.neg O a).Sat True fun _ => False := by
    unfold CPoly.neg forUp
    rw [hn, loopUp]
    simp only [CPoly.new, store, he0, ok_bind, bind_assoc]
    refine Sat.bind (H.neg hr0) fun v0 _ => ?_
    rw [wr_ok (by simp), ok_bind, loopUp]
    simp only [store, zero_add, he1, ok_bind, bind_assoc]
    refine Sat.bind (H.neg hr1) fun v1 _ => ?_
    simp [wr, Sat]
  cases e : CPoly.neg O a with
  | ub => rfl
  | _ => rw [e] at h; exact h.elim

theorem neg_true (H : CoefRef True O rep ord) {a : CPoly α} {f : K[X]} (ha : PRep rep a f) :
    (CPoly.neg O a).Sat True (fun r => PRep rep r (-f)) := by
  rcases Nat.eq_zero_or_pos a.degree with h0 | h0
  · exact CPoly.neg_const_sat H ha h0
  · rw [neg_ub H ha h0]; trivial

theorem cpoly_rref (H : CoefRef U O rep ord) {ng : CPoly α → Res (CPoly α)}
    (hn : ∀ {a f}, PRep rep a f → (ng a).Sat U (fun r => PRep rep r (-f))) :
    RRef U { cpolyOps O with neg := ng } (PRep rep) (polySem K) (polyLt ord) where
  neg := hn
  add h h' := CPoly.add_sat H h h'
  sub h h' := CPoly.sub_sat H h h'
  mul h h' := CPoly.mul_sat H h h'
  div {a b f g} ha hb := by
    show Right U (CPoly.div O a b) _ _
    unfold CPoly.div
    by_cases hg : g = 0
    · subst hg
      simp only [polySem, if_true]
      exact Throws.bind (CPoly.quot_and_rem_zero H ha hb)
    · simp only [polySem, hg, if_false]
      refine Sat.bind (CPoly.quot_and_rem_sat H ha hb hg (CPoly.unit_lead hg)) fun s hs => ?_
      obtain ⟨q, r, h1, h2, h3, h4⟩ := hs
      rw [Sat_ok, ← (quot_eq h3 h4).1]; exact h1
  mod {a b f g} ha hb := by
    show Right U (CPoly.mod O a b) _ _
    unfold CPoly.mod
    by_cases hg : g = 0
    · subst hg
      simp only [polySem, if_true]
      exact Throws.bind (CPoly.quot_and_rem_zero H ha hb)
    · simp only [polySem, hg, if_false]
      refine Sat.bind (CPoly.quot_and_rem_sat H ha hb hg (CPoly.unit_lead hg)) fun s hs => ?_
      obtain ⟨q, r, h1, h2, h3, h4⟩ := hs
      rw [Sat_ok, ← (quot_eq h3 h4).2]; exact h2
  eq h h' := CPoly.eq_sat H h h'
  ne {a b f g} h h' := by
    refine Sat.bind (CPoly.cmp_sat H h h') fun d hd => ?_
    rw [Sat_ok]
    rcases hd with ⟨rfl, e⟩ | ⟨rfl, e⟩ | ⟨rfl, e⟩
    · simp [e]
    · have : f ≠ g := by rintro rfl; exact CPoly.polyLt_irrefl H _ e
      simp [this]
    · have : f ≠ g := by rintro rfl; exact CPoly.polyLt_irrefl H _ e
      simp [this]
  lt h h' := CPoly.lt_sat H h h'
  le {a b f g} h h' := by
    refine Sat.bind (CPoly.cmp_sat H h h') fun d hd => ?_
    rw [Sat_ok, decide_eq_true_iff]
    rcases hd with ⟨rfl, e⟩ | ⟨rfl, e⟩ | ⟨rfl, e⟩
    · simp [e, CPoly.polyLt_irrefl H]
    · simp [CPoly.polyLt_asymm H e]
    · simp [e]
  gt h h' := CPoly.gt_sat H h h'
  ge {a b f g} h h' := by
    refine Sat.bind (CPoly.cmp_sat H h h') fun d hd => ?_
    rw [Sat_ok, decide_eq_true_iff]
    rcases hd with ⟨rfl, e⟩ | ⟨rfl, e⟩ | ⟨rfl, e⟩
    · simp [e, CPoly.polyLt_irrefl H]
    · simp [e]
    · simp [CPoly.polyLt_asymm H e]

/-! ### Residues -/

variable {M : K[X]}

theorem ngm_sat (H : CoefRef U O rep ord) {a : CMod α} {x : AdjoinRoot M} (ha : CMod.Rep rep M a x) :
    (do let z ← CMod.sub O a a; CMod.sub O z a).Sat U (fun r => CMod.Rep rep M r (-x)) := by
  refine (CMod.sub_sat H ha ha).bind fun z hz => ?_
  rw [sub_self] at hz
  simpa using CMod.sub_sat H hz ha

theorem negm_true (H : CoefRef True O rep ord) {a : CMod α} {x : AdjoinRoot M} (ha : CMod.Rep rep M a x) :
    (CMod.neg O a).Sat True (fun r => CMod.Rep rep M r (-x)) := by
  unfold CMod.neg
  obtain ⟨f, hf, _, rfl⟩ := ha.hr
  refine (neg_true H hf).bind fun s hs => ?_
  rw [← map_neg]; exact CMod.mk'_sat H hs ha.hm ha.m_ne

theorem negm_ub (H : CoefRef True O rep ord) {a : CMod α} {x : AdjoinRoot M} (ha : CMod.Rep rep M a x) (h0 : 0 < a.residue.degree) :
    CMod.neg O a = ub := by
  obtain ⟨f, hf, _, rfl⟩ := ha.hr
  unfold CMod.neg
  rw [neg_ub H hf h0]; rfl

theorem cmod_mod_throw (H : CoefRef U O rep ord) {a b : CMod α} {x y : AdjoinRoot M} (ha : CMod.Rep rep M a x)
    (hb : CMod.Rep rep M b y) (hy : ¬ IsUnit y) : (CMod.mod O a b).Throws U := by
  unfold CMod.mod
  refine (CMod.check_sat H ha hb).throws_bind fun _ _ => ?_
  refine (CMod.recip_sat H hb).throws_bind fun o ho => ?_
  cases o with
  | none => exact Or.inl rfl
  | some i =>
    obtain ⟨w, hw, hyw⟩ := ho
    exact absurd (IsUnit.of_mul_eq_one _ hyw) hy

theorem cmod_rref (H : CoefRef U O rep ord) {ng : CMod α → Res (CMod α)}
    (hn : ∀ {a x}, CMod.Rep rep M a x → (ng a).Sat U (fun r => CMod.Rep rep M r (-x))) :
    RRef U { cmodOps O with neg := ng } (CMod.Rep rep M) (unitSem (AdjoinRoot M)) (CMod.ordM ord M) where
  neg := hn
  add h h' := CMod.add_sat H h h'
  sub h h' := CMod.sub_sat H h h'
  mul h h' := CMod.mul_sat H h h'
  div {a b x y} ha hb := by
    show Right U (CMod.div O a b) _ _
    by_cases hy : IsUnit y
    · simp only [unitSem, hy, if_true]
      exact CMod.div_sat H ha hb (Ring.mul_inverse_cancel y hy)
    · simp only [unitSem, hy, if_false]
      exact CMod.div_throw H ha hb hy
  mod {a b x y} ha hb := by
    show Right U (CMod.mod O a b) _ _
    by_cases hy : IsUnit y
    · simp only [unitSem, hy, if_true]
      exact CMod.mod_unit_sat H ha hb hy
    · simp only [unitSem, hy, if_false]
      exact cmod_mod_throw H ha hb hy
  eq h h' := CMod.eq_sat H h h'
  ne {a b x y} h h' := by
    refine Sat.bind (CMod.eq_sat H h h') fun r hr => ?_
    rw [Sat_ok]
    cases r <;> simp_all
  lt h h' := CMod.lt_sat H h h'
  le {a b x y} ha hb := by
    obtain ⟨f, hf, df, rfl⟩ := ha.hr
    obtain ⟨g, hg, dg, rfl⟩ := hb.hr
    refine (CMod.check_sat H ha hb).bind fun _ _ => ?_
    rw [CMod.ordM_mk dg df]
    exact (cpoly_rref H (ng := fun a => do let z ← CPoly.sub O a a; CPoly.sub O z a) fun h => ng_sat H h).le hf hg
  gt h h' := CMod.gt_sat H h h'
  ge {a b x y} ha hb := by
    obtain ⟨f, hf, df, rfl⟩ := ha.hr
    obtain ⟨g, hg, dg, rfl⟩ := hb.hr
    refine (CMod.check_sat H ha hb).bind fun _ _ => ?_
    rw [CMod.ordM_mk df dg]
    exact (cpoly_rref H (ng := fun a => do let z ← CPoly.sub O a a; CPoly.sub O z a) fun h => ng_sat H h).ge hf hg

end CPolyRef

/-! ### Over F2 -/

section F2
open F2P

theorem f2_cmp {a b : F2P} (ha : a ≠ []) (hb : b ≠ []) :
    F2P.le a b = ok (decide (nval (toPoly a) ≤ nval (toPoly b))) ∧ F2P.ge a b = ok (decide (nval (toPoly b) ≤ nval (toPoly a))) ∧
    F2P.ne a b = ok (decide (toPoly a ≠ toPoly b)) := by
  have e := F2P.eq_ok ha hb
  unfold F2P.eq at e
  unfold F2P.le F2P.ge F2P.ne
  rw [cmp_ok ha hb] at e ⊢
  simp only [ok_bind, Res.ok.injEq] at e ⊢
  refine ⟨?_, ?_, ?_⟩
  · unfold dir; rw [decide_eq_decide]; split <;> [skip; split] <;> omega
  · unfold dir; rw [decide_eq_decide]; split <;> [skip; split] <;> omega
  · rw [bne, e]; simp

theorem promote_1_zero {ps : F2P} (hn : ps ≠ []) (h : toPoly ps = 0) :
    (promote_1 ps).Ok fun r => toPoly r = 0 ∧ r ≠ [] ∧ ps.length ≤ r.length := by
  refine (grow_shift_ok hn (k := 1) (by omega) (by omega) mask1).mono fun r hr => ?_
  obtain ⟨h1, h2⟩ := hr
  have h3 : ps.length ≤ r.length := by rw [h2]; split <;> omega
  refine ⟨by rw [h1, h, zero_mul], ?_, h3⟩
  rintro rfl
  exact hn (List.length_eq_zero_iff.1 (by simpa using h3))

theorem rd_true {β : Type} {l : List β} {i : ℕ} : (rd l i).Sat True fun x => l[i]? = some x := by
  unfold rd
  cases l[i]? <;> simp [Sat]

theorem words_zero {ps : F2P} (h : toPoly ps = 0) {j : ℕ} {w : BitVec 64} (hj : ps[j]? = some w) : w = 0#64 := by
  have h0 := toPoly_eq_zero.1 h
  obtain ⟨hl, rfl⟩ := List.getElem?_eq_some_iff.1 hj
  apply BitVec.eq_of_getLsbD_eq
  intro b hb
  have := h0 (64 * j + b)
  rw [bitAt_word _ _ _ hb, g_eq_getElem hl] at this
  simpa using this

/-- Adding the words of zero, to a zero: the outcome is zero, or a word of the sum does not exist. -/
theorem xorInto_zero {src : F2P} (hs : toPoly src = 0) {L : ℕ} {out : F2P} (ho : toPoly out = 0) (hl : out.length = L) :
    (forUp 0 src.length out (xorInto src)).Sat True fun r => toPoly r = 0 ∧ r.length = L ∧ src.length ≤ L := by
  refine forUp_sat (fun j s => toPoly s = 0 ∧ s.length = L ∧ j ≤ L) (Nat.zero_le _) ⟨ho, hl, Nat.zero_le _⟩ ?_
  intro i s _ hi hI
  obtain ⟨h1, h2, _⟩ := hI
  unfold xorInto
  refine Sat.bind rd_true fun x hx => ?_
  refine Sat.bind rd_true fun y hy => ?_
  have hx0 := words_zero h1 hx
  have hy0 := words_zero hs hy
  have hil : i < s.length := (List.getElem?_eq_some_iff.1 hx).1
  rw [wr_ok hil, Sat_ok]
  have e : s.set i (x ^^^ y) = s := by
    rw [hy0, hx0]
    have : s[i] = 0#64 := by rw [List.getElem?_eq_getElem hil] at hx; rw [Option.some.inj hx, hx0]
    conv_rhs => rw [← List.set_getElem_self hil]
    rw [this]; rfl
  rw [e]
  exact ⟨h1, h2, by omega⟩

/-- The loop of `operator*` when the left operand is zero. -/
theorem mulLoop_zero {a b : F2P} {L n : ℕ} (ha : a ≠ []) (h0 : toPoly a = 0) :
    (forUp 0 n (List.replicate L 0#64, a) (mulStep b)).Sat True fun s => toPoly s.1 = 0 ∧ s.1.length = L ∧
      (L < a.length → ∀ i < n, bitAt b i = false) := by
  refine (forUp_sat (fun i (s : F2P × F2P) => (toPoly s.1 = 0 ∧ s.1.length = L) ∧ (s.2 ≠ [] ∧ toPoly s.2 = 0 ∧ a.length ≤ s.2.length) ∧
    (L < a.length → ∀ j < i, bitAt b j = false)) (Nat.zero_le _) ?_ ?_).mono fun s h => ⟨h.1.1, h.1.2, h.2.2⟩
  · exact ⟨⟨toPoly_eq_zero.2 (bitAt_replicate L), by simp⟩, ⟨ha, h0, le_rfl⟩, fun _ j hj => by omega⟩
  · intro i s _ hi hI
    obtain ⟨⟨h1, h2⟩, ⟨h3, h4, h5⟩, h6⟩ := hI
    have hp := promote_1_zero h3 h4
    unfold mulStep
    rw [bit_at_ok, ok_bind]
    cases hb : bitAt b i with
    | true =>
      rw [if_pos rfl]
      refine Sat.bind (xorInto_zero h4 h1 h2) fun o ho => ?_
      refine Sat.bind hp.sat fun sh hsh => ?_
      rw [Sat_ok]
      exact ⟨⟨ho.1, ho.2.1⟩, ⟨hsh.2.1, hsh.1, h5.trans hsh.2.2⟩, fun hL => by omega⟩
    | false =>
      rw [if_neg (by simp)]
      refine Sat.bind hp.sat fun sh hsh => ?_
      rw [Sat_ok]
      refine ⟨⟨h1, h2⟩, ⟨hsh.2.1, hsh.1, h5.trans hsh.2.2⟩, fun hL j hj => ?_⟩
      rcases Nat.lt_succ_iff_lt_or_eq.1 hj with hj | rfl
      · exact h6 hL j hj
      · exact hb

theorem mul_true {a b : F2P} (ha : Good a) : (F2P.mul a b).Sat True fun r => toPoly r = toPoly a * toPoly b ∧ Good r := by
  by_cases h0 : toPoly a = 0
  · unfold F2P.mul
    rw [find_degree_ok, ok_bind, find_degree_ok, ok_bind]
    refine Sat.bind (mulLoop_zero ha.1 h0) fun s hs => ?_
    rw [Sat_ok]
    refine ⟨by rw [hs.1, h0, zero_mul], ?_, fun h => absurd hs.1 h⟩
    apply ne_nil_of_length
    rw [hs.2.1]; omega
  · exact (mul_ok (ha.2 h0)).sat

/-- A zero of several words cannot be multiplied by a polynomial of fewer. -/
theorem mul_zero_ub {a b : F2P} (ha : a ≠ []) (h0 : toPoly a = 0) (hb : toPoly b ≠ 0)
    (hl : (toPoly b).natDegree / 64 + 1 < a.length) : F2P.mul a b = ub := by
  have h : (F2P.mul a b).Sat True fun _ => False := by
    unfold F2P.mul
    rw [find_degree_ok, ok_bind, find_degree_ok, ok_bind]
    refine Sat.bind (mulLoop_zero ha h0) fun s hs => ?_
    have := hs.2.2 (by rw [h0, natDegree_zero]; omega) _ (Nat.lt_succ_self _)
    have hc : (toPoly b).coeff (toPoly b).natDegree ≠ 0 := leadingCoeff_ne_zero.2 hb
    rw [coeff_ne_zero] at hc
    rw [this] at hc
    cases hc
  cases e : F2P.mul a b with
  | ub => rfl
  | _ => rw [e] at h; exact h.elim

theorem f2_rref : RRef True f2Ops WR (polySem (ZMod 2)) (fun x y => nval x < nval y) where
  neg {a x} h := by
    show (F2P.neg a).Sat _ _
    unfold F2P.neg
    rw [Sat_ok, F2Mod.neg_eq]; exact h
  add {a b x y} h h' := (F2P.add_ok h.1.1).sat.mono fun r hr => ⟨hr.2.good, by rw [hr.1, h.2, h'.2]⟩
  sub {a b x y} h h' := (F2P.sub_ok h.1.1).sat.mono fun r hr => ⟨hr.2.good, by rw [hr.1, h.2, h'.2]⟩
  mul {a b x y} h h' := (mul_true h.1).mono fun r hr => ⟨hr.2, by rw [hr.1, h.2, h'.2]⟩
  div {a b x y} h h' := by
    obtain ⟨h1, rfl⟩ := h
    obtain ⟨h2, rfl⟩ := h'
    show Right True (F2P.div a b) _ _
    by_cases h0 : toPoly b = 0
    · simp only [polySem, h0, if_true]
      unfold F2P.div
      rw [quot_and_rem_throw h2.1 h0]
      exact .inl rfl
    · simp only [polySem, h0, if_false]
      exact (F2P.div_ok h1 h2.1 h0).sat.mono fun r hr => ⟨hr.2.good, hr.1⟩
  mod {a b x y} h h' := by
    obtain ⟨h1, rfl⟩ := h
    obtain ⟨h2, rfl⟩ := h'
    show Right True (F2P.mod a b) _ _
    by_cases h0 : toPoly b = 0
    · simp only [polySem, h0, if_true]
      unfold F2P.mod
      rw [quot_and_rem_throw h2.1 h0]
      exact .inl rfl
    · simp only [polySem, h0, if_false]
      exact (F2P.mod_ok h1 h2.1 h0).sat.mono fun r hr => ⟨hr.2.good, hr.1⟩
  eq {a b x y} h h' := by
    obtain ⟨h1, rfl⟩ := h
    obtain ⟨h2, rfl⟩ := h'
    show (F2P.eq a b).Sat _ _
    rw [F2P.eq_ok h1.1 h2.1, Sat_ok, decide_eq_true_iff]
  ne {a b x y} h h' := by
    obtain ⟨h1, rfl⟩ := h
    obtain ⟨h2, rfl⟩ := h'
    show (F2P.ne a b).Sat _ _
    rw [(f2_cmp h1.1 h2.1).2.2, Sat_ok, decide_eq_true_iff]
  lt {a b x y} h h' := by
    obtain ⟨h1, rfl⟩ := h
    obtain ⟨h2, rfl⟩ := h'
    show (F2P.lt a b).Sat _ _
    rw [F2P.lt_ok h1.1 h2.1, Sat_ok, decide_eq_true_iff]
  le {a b x y} h h' := by
    obtain ⟨h1, rfl⟩ := h
    obtain ⟨h2, rfl⟩ := h'
    show (F2P.le a b).Sat _ _
    rw [(f2_cmp h1.1 h2.1).1, Sat_ok, decide_eq_true_iff, not_lt]
  gt {a b x y} h h' := by
    obtain ⟨h1, rfl⟩ := h
    obtain ⟨h2, rfl⟩ := h'
    show (F2P.gt a b).Sat _ _
    rw [F2Mod.gt_ok h1.1 h2.1, Sat_ok, decide_eq_true_iff]
  ge {a b x y} h h' := by
    obtain ⟨h1, rfl⟩ := h
    obtain ⟨h2, rfl⟩ := h'
    show (F2P.ge a b).Sat _ _
    rw [(f2_cmp h1.1 h2.1).2.1, Sat_ok, decide_eq_true_iff, not_lt]

theorem f2mod_mod_throw {m : (ZMod 2)[X]} {a b : F2Mod} {x y : AdjoinRoot m} (ha : F2Mod.Rep m a x) (hb : F2Mod.Rep m b y)
    (hy : ¬ IsUnit y) : F2Mod.mod a b = .throw := by
  unfold F2Mod.mod
  rw [F2Mod.check_ok ha hb, ok_bind]
  obtain ⟨o, ho, hs⟩ := F2Mod.recip_ok hb
  rw [ho, ok_bind]
  cases o with
  | none => rfl
  | some i =>
    obtain ⟨w, hw, hyw⟩ := hs
    exact absurd (IsUnit.of_mul_eq_one _ hyw) hy

theorem f2mod_rref {m : (ZMod 2)[X]} (hm0 : m ≠ 0) :
    RRef False f2modOps (F2Mod.Rep m) (unitSem (AdjoinRoot m)) (F2Mod.ordQ m) where
  neg h := (F2Mod.neg_ok h).sat
  add h h' := (F2Mod.add_ok h h').sat
  sub h h' := (F2Mod.sub_ok h h').sat
  mul h h' := (F2Mod.mul_ok h h').sat
  div {a b x y} ha hb := by
    show Right False (F2Mod.div a b) _ _
    by_cases hy : IsUnit y
    · simp only [unitSem, hy, if_true]
      exact (F2Mod.div_ok ha hb (Ring.mul_inverse_cancel y hy)).sat
    · simp only [unitSem, hy, if_false]
      exact .inl (F2Mod.div_throw ha hb hy)
  mod {a b x y} ha hb := by
    show Right False (F2Mod.mod a b) _ _
    by_cases hy : IsUnit y
    · simp only [unitSem, hy, if_true]
      exact (F2Mod.mod_ok ha hb hy).sat
    · simp only [unitSem, hy, if_false]
      exact .inl (f2mod_mod_throw ha hb hy)
  eq h h' := (F2Mod.cops_ref hm0).eq h h'
  ne {a b x y} h h' := by
    refine Sat.bind ((F2Mod.cops_ref hm0).eq h h') fun r hr => ?_
    rw [Sat_ok]
    cases r <;> simp_all
  lt h h' := (F2Mod.cops_ref hm0).lt h h'
  le {a b x y} h h' := by
    show (F2Mod.check_moduli a b >>= fun _ => F2P.le a.residue b.residue).Sat _ _
    rw [F2Mod.check_ok h h', ok_bind, (f2_cmp h.cr.ne_nil h'.cr.ne_nil).1, Sat_ok, decide_eq_true_iff, F2Mod.ordQ_iff h' h, not_lt]
  gt h h' := (F2Mod.cops_ref hm0).gt h h'
  ge {a b x y} h h' := by
    show (F2Mod.check_moduli a b >>= fun _ => F2P.ge a.residue b.residue).Sat _ _
    rw [F2Mod.check_ok h h', ok_bind, (f2_cmp h.cr.ne_nil h'.cr.ne_nil).2.1, Sat_ok, decide_eq_true_iff, F2Mod.ordQ_iff h h', not_lt]

end F2

/-! ### The calculators -/

section Calc
variable {α K : Type} [CommRing K] {U : Prop} {O : EOps α} {E : EltIO α} {zero one : α} {rep : α → K → Prop}
  {S : Sem K} {ord : K → K → Prop} {Text Out : List Char → K → Prop}

/-- A word that denotes a value, or a truth value. -/
def Shows (Text : List Char → K → Prop) (w : List Char) : K ⊕ Bool → Prop
  | .inl x => Text w x
  | .inr b => w = [if b then '1' else '0']

/-- `Text` is what is read, `Out` what is printed. -/
theorem calc_right (H : RRef U O rep S ord) (h0 : rep zero 0) (h1 : rep one 1)
    (hr : ∀ {t x}, Text t x → (E.read zero t).Sat U fun r => rep r.1 x ∧ r.2.fail = false)
    (hp : ∀ {a x}, rep a x → ∃ t, E.print a = ok t ∧ Out t x)
    {lit : String → Option K} {litI : String → Option Int} {t : Tree} {ts : List String} (hd : Derives scalarG .Q t ts)
    (hv : ∀ s, (false, s) ∈ t.lits false → ∃ x, lit s = some x ∧ Text s.toList x)
    (hi : ∀ s, (true, s) ∈ t.lits false → Right False (Scan.readInt s.toList) (litI s) (fun n k => n = k ∧ InInt n ∧ (n = INT_MIN → U))) :
    Right U (calcOp O E zero one ts) (denSQ S lit litI ord t) (fun out x => ∃ w, out = [w] ∧ Shows Out w x) := by
  have R : Reads U rep (elt E zero) (fun s => Scan.readInt s.toList) lit litI t := by
    refine ⟨fun s hs => ?_, hi⟩
    obtain ⟨x, hx, ht⟩ := hv s hs
    rw [hx]
    refine Sat.bind (hr ht) fun r h => ?_
    rw [h.2, if_neg (by simp), Sat_ok]
    exact h.1
  have := parse_rright H h0 h1 hd R
  unfold calcOp
  cases hq : denSQ S lit litI ord t with
  | none => rw [hq] at this; exact Throws.bind this
  | some x =>
    rw [hq] at this
    refine Sat.bind (P := fun out => ∃ v, out = [v] ∧ RepQ rep v x) this fun out ho => ?_
    obtain ⟨v, rfl, hv⟩ := ho
    cases x with
    | inl x =>
      obtain ⟨a, rfl, ha⟩ := hv
      obtain ⟨w, hw, hw'⟩ := hp ha
      simp only [each, showAtom, hw, ok_bind, Sat_ok]
      exact ⟨w, rfl, hw'⟩
    | inr b =>
      have hv : v = .int (if b then 1 else 0) := hv
      subst hv
      simp only [each, showAtom, ok_bind, Sat_ok]
      refine ⟨_, rfl, ?_⟩
      cases b <;> (show _ = _; decide +kernel)

/-- Trees without a unary minus. -/
def NoNeg : Tree → Prop
  | .lit _ => True
  | .un o t => o ≠ .uminus ∧ NoNeg t
  | .bin _ t u => NoNeg t ∧ NoNeg u

theorem eval_noneg (ng : α → Res α) {scan : String → Res α} {scanI : String → Res Int} {t : Tree} (h : NoNeg t) (m : Bool) :
    eval (scalar { O with neg := ng } zero one scan scanI) m t = eval (scalar O zero one scan scanI) m t := by
  induction t generalizing m with
  | lit s => rfl
  | un o t ih =>
    simp only [eval, ih h.2]
    have : (scalar { O with neg := ng } zero one scan scanI).un o = (scalar O zero one scan scanI).un o := by
      funext a
      show scalarUn _ o a = scalarUn _ o a
      have := h.1
      cases o <;> first | rfl | exact absurd rfl this
    rw [this]
  | bin o t u ih1 ih2 =>
    simp only [eval, ih1 h.1, ih2 h.2]
    rfl

theorem calc_noneg (ng : α → Res α) {t : Tree} {ts : List String} (hd : Derives scalarG .Q t ts) (h : NoNeg t) :
    calcOp { O with neg := ng } E zero one ts = calcOp O E zero one ts := by
  unfold calcOp
  rw [parse_derives (scalar_fits _ _ _ _ _) hd, parse_derives (scalar_fits _ _ _ _ _) hd, eval_noneg ng h]

/-- The calculator on a unary minus. -/
theorem calc_neg {s : String} (hs : scalarG.IsLit s) {P : α → Prop} (hr : (E.read zero s.toList).Sat True fun r => P r.1 ∧ r.2.fail = false)
    (hn : ∀ a, P a → O.neg a = ub) : calcOp O E zero one ["-", s] = ub := by
  have hd : Derives scalarG .Q (.un .uminus (.lit s)) ["-", s] :=
    .ofC (.ofE (.ofT (.ofF (.neg (.ofP (.lit hs))))))
  unfold calcOp
  rw [parse_derives (scalar_fits O zero one (elt E zero) (fun s => Scan.readInt s.toList)) hd]
  have h : (eval (scalar O zero one (elt E zero) (fun s => Scan.readInt s.toList)) false (.un .uminus (.lit s))).Sat True fun _ => False := by
    simp only [eval, scalar, Bool.false_eq_true, if_false, elt, bind_assoc]
    refine Sat.bind hr fun r h => ?_
    rw [h.2, if_neg (by simp)]
    simp only [ok_bind, scalarUn, hn _ h.1]
    trivial
  cases e : eval (scalar O zero one (elt E zero) (fun s => Scan.readInt s.toList)) false (.un .uminus (.lit s)) with
  | ub => rfl
  | _ => rw [e] at h; exact h.elim

end Calc

end Spffl.Expr
