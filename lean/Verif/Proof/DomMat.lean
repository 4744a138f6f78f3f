import Verif.Proof.RowReduce
import Verif.Proof.MatInverse

/-!
# Determinants and powers of matrices over domains

`tmatrix::det` (`/repo/spffl/containers/tmatrix.h:1414-1427`) divides by the pivots.  Over the integers or polynomials the quotient of
one by a pivot that is not a unit is zero.
-/

namespace Spffl
open Res

/-- The operators, over a domain: a non-zero element divided by itself is one, one divided by what is neither zero nor a unit is
zero, and division by zero is refused. -/
structure DomRef (U : Prop) {α R : Type} [CommRing R] (O : TOps α) (rep : α → R → Prop) : Prop extends EltRef U O rep where
  self : ∀ {a b x}, rep a x → rep b x → x ≠ 0 → (O.div a b).Sat U fun r => rep r 1
  low : ∀ {a b y}, rep a 1 → rep b y → y ≠ 0 → ¬ IsUnit y → (O.div a b).Sat U fun r => rep r 0
  zero : ∀ {a b x}, rep a x → rep b 0 → (O.div a b).Throws U

/-- A value with `P`, or an exception where `T`. -/
def Res.May {β : Type} (U T : Prop) (r : Res β) (P : β → Prop) : Prop :=
  match r with
  | ok b => P b
  | .throw => T
  | ub => U
  | timeout => False

section may
variable {β γ : Type} {U T : Prop}

theorem Res.Sat.may {r : Res β} {P : β → Prop} (h : r.Sat U P) : r.May U T P := by
  cases r with
  | throw => exact h.elim
  | _ => exact h

theorem Res.Sat.may_bind {r : Res β} {P : β → Prop} {f : β → Res γ} {Q : γ → Prop} (h : r.Sat U P) (hf : ∀ b, P b → (f b).May U T Q) :
    (r >>= f).May U T Q := by
  cases r with
  | ok b => exact hf b h
  | throw => exact h.elim
  | ub => exact h
  | timeout => exact h

theorem Res.May.bind {r : Res β} {P : β → Prop} {f : β → Res γ} {Q : γ → Prop} (h : r.May U T P) (hf : ∀ b, P b → (f b).May U T Q) :
    (r >>= f).May U T Q := by
  cases r with
  | ok b => exact hf b h
  | throw => exact h
  | ub => exact h
  | timeout => exact h

theorem Res.May.mono {r : Res β} {P Q : β → Prop} (h : r.May U T P) (hf : ∀ b, P b → Q b) : r.May U T Q := by
  cases r with
  | ok b => exact hf b h
  | _ => exact h

theorem Res.Throws.may {r : Res β} {P : β → Prop} (h : r.Throws U) (ht : T) : r.May U T P := by
  rcases h with rfl | ⟨h, rfl⟩
  · exact ht
  · exact h

end may

section dom
variable {U : Prop} {α R : Type} [CommRing R] {O : TOps α} {rep : α → R → Prop} {m n : ℕ}

theorem dfind_one_sat (H : DomRef U O rep) {A : TMat α} {M : Matrix (Fin m) (Fin n) R} (hm : 0 < m) (hn : 0 < n) (hA : MRep rep A M) :
    (TMat.find_one O A).Sat U (fun r => match r with
      | none => M = 0
      | some x => M ≠ 0 ∧ rep x 1) := by
  unfold TMat.find_one
  refine (get_sat (hA.at hm hn)).bind fun a ha => ?_
  refine (H.sub ha ha).bind fun z hz => ?_
  rw [sub_self] at hz
  rw [hA.shape.nr]
  refine (nonzeroIn_sat H.eqRef hA hz m 0 rfl).bind fun r hr => ?_
  cases r with
  | none => exact funext fun i => hr i (Nat.zero_le _)
  | some x =>
    obtain ⟨i, j, h1, h2⟩ := hr
    refine (H.self h2 h2 h1).bind fun one hone => ?_
    rw [Sat_ok]
    exact ⟨fun h => h1 (by rw [h]; rfl), hone⟩

/-- Powers with positive exponents. -/
theorem dexp_sat (H : DomRef U O rep) {A : TMat α} {M : Matrix (Fin n) (Fin n) R} (hn : 0 < n) (hA : MRep rep A M) {e : Int} (he : InInt e) (he1 : 1 ≤ e) :
    (TMat.exp O A e).Sat U (fun r => r.1 = true ∧ ∃ B, r.2 = some B ∧ MRep rep B (M ^ e.toNat)) := by
  unfold TMat.exp TMat.is_square
  rw [hA.shape.nr, hA.shape.nc]
  simp only [beq_self_eq_true, Bool.not_true, Bool.false_eq_true, if_false]
  refine (get_sat (hA.at hn hn)).bind fun a ha => ?_
  refine (H.sub ha ha).bind fun z hz => ?_
  rw [sub_self] at hz
  refine (dfind_one_sat H hn hn hA).bind fun o ho => ?_
  cases o with
  | none =>
    have ho : M = 0 := ho
    subst ho
    simp only
    rw [if_neg (by omega), Sat_ok]
    refine ⟨rfl, A, rfl, ?_⟩
    rw [zero_pow (by omega)]; exact hA
  | some one =>
    refine (make_I_sat hA hz ho.2).bind fun I hI => ?_
    rw [if_pos he1]
    unfold TMat.posexp
    refine Sat.bind (sqMulLoop_pow (g := M) (rp := fun A M => MRep rep A M) (fun ha hb => mul_sat' H.toEltRef hn hn hn ha hb) 32 I A 0 1 e.toNat
      (by unfold InInt at he; omega) (by simpa using hI) (by simpa using hA)) fun r hr => ?_
    exact ⟨rfl, r, rfl, by simpa using hr⟩

/-- The pivot is the first non-zero entry. -/
theorem findPivot_first (H : EqRef U O rep) {A : TMat α} {M : Matrix (Fin m) (Fin n) R} (hA : MRep rep A M) {zero : α}
    (hz : rep zero 0) {col : ℕ} (hc : col < n) : ∀ k p, k + p = m → (TMat.findPivot O A zero col k p).Sat U (fun r => match r with
      | none => ∀ i : Fin m, p ≤ (i : ℕ) → M i ⟨col, hc⟩ = 0
      | some q => p ≤ q ∧ (∀ i : Fin m, p ≤ (i : ℕ) → (i : ℕ) < q → M i ⟨col, hc⟩ = 0) ∧ ∃ hq : q < m, M ⟨q, hq⟩ ⟨col, hc⟩ ≠ 0)
  | 0, p, h => by unfold TMat.findPivot; simp only [Sat_ok]; intro i hi; have := i.2; omega
  | k + 1, p, h => by
    unfold TMat.findPivot
    have hp : p < m := by omega
    refine (raw_sat (hA.at hp hc)).bind fun e he => ?_
    refine (neq_sat H he hz).bind fun d hd => ?_
    cases d with
    | true =>
      simp only [if_true, Sat_ok]
      exact ⟨le_rfl, fun i h1 h2 => by omega, hp, hd.mp rfl⟩
    | false =>
      have hx : M ⟨p, hp⟩ ⟨col, hc⟩ = 0 := by
        by_contra hne; simpa using hd.mpr hne
      have ext : ∀ i : Fin m, p ≤ (i : ℕ) → ¬ p + 1 ≤ (i : ℕ) → M i ⟨col, hc⟩ = 0 := fun i h1 h2 => by
        have : i = ⟨p, hp⟩ := Fin.ext (by simp; omega)
        rw [this]; exact hx
      simp only [Bool.false_eq_true, if_false]
      refine (findPivot_first H hA hz hc k (p + 1) (by omega)).mono fun r hr => ?_
      cases r with
      | none =>
        intro i hi
        by_cases h' : p + 1 ≤ (i : ℕ)
        · exact hr i h'
        · exact ext i hi h'
      | some q =>
        refine ⟨by have := hr.1; omega, fun i h1 h2 => ?_, hr.2.2⟩
        by_cases h' : p + 1 ≤ (i : ℕ)
        · exact hr.2.1 i h' h2
        · exact ext i h1 h'

/-- A pivot that is not a unit: the row becomes zero, and if there are rows below, zero is divided by. -/
theorem normClear_low (H : DomRef U O rep) {A : TMat α} {s zero one : α} {M : Matrix (Fin m) (Fin n) R} {x : R} (hA : MRep rep A M)
    (hs : rep s x) (hz : rep zero 0) (ho : rep one 1) {top left : ℕ} (ht : top < m) (hl : left < n)
    (hne : M ⟨top, ht⟩ ⟨left, hl⟩ ≠ 0) (hu : ¬ IsUnit (M ⟨top, ht⟩ ⟨left, hl⟩)) :
    (top + 1 < m → (TMat.normClear O A s zero one top left).Throws U) ∧
    (top + 1 = m → (TMat.normClear O A s zero one top left).Sat U fun r => MRep rep r.1 (M.updateRow ⟨top, ht⟩ 0) ∧ ∃ y, rep r.2 y) := by
  have key : ∀ {Q : Res (TMat α × α) → Prop}, (∀ r, U → r = ub → Q r) → (∀ B s' lead', MRep rep B (M.updateRow ⟨top, ht⟩ 0) → (∃ y, rep s' y) → rep lead' 0 →
      Q (TMat.clearBelow O B s' lead' top left)) → Q (TMat.normClear O A s zero one top left) := by
    intro Q hub hQ
    have go : ∀ {β : Type} {r : Res β} {f : β → Res (TMat α × α)} {P : β → Prop}, r.Sat U P → (∀ b, P b → Q (f b)) → Q (r >>= f) := by
      intro β r f P h hf
      cases r with
      | ok b => exact hf b h
      | throw => exact h.elim
      | ub => exact hub _ h rfl
      | timeout => exact h.elim
    unfold TMat.normClear
    refine go (raw_sat (hA.at ht hl)) fun lead hlead => ?_
    refine go (ne_sat H.toEltRef hlead hz) fun d hd => ?_
    rw [if_pos (hd.mpr hne)]
    refine go (H.low ho hlead hne hu) fun inv hinv => ?_
    refine go (setRow_sat (x := (0 : R) • M ⟨top, ht⟩) hA ht ?_) fun B hB => ?_
    · refine (rd_sat (hA.rowRep ht)).bind fun v hv => ?_
      exact mult_by_sat H.toEltRef hv hinv
    rw [zero_smul] at hB
    refine go (H.mul hs hlead) fun s' hs' => ?_
    refine go (raw_sat (hB.at ht hl)) fun lead' hlead' => ?_
    rw [Matrix.updateRow_self, Pi.zero_apply] at hlead'
    exact hQ _ _ _ hB ⟨_, hs'⟩ hlead'
  constructor
  · intro htm
    refine key (Q := fun r => r.Throws U) (fun r hU e => .inr ⟨hU, e⟩) fun B s' lead' hB ⟨y, hy⟩ hl' => ?_
    unfold TMat.clearBelow forUp
    rw [hB.shape.nr, show m - (top + 1) = (m - (top + 1) - 1) + 1 by omega]
    unfold loopUp
    refine Throws.bind ?_
    refine (raw_sat (hB.at htm hl)).throws_bind fun cl hcl => ?_
    refine (setRow_sat (x := (0 : R) • (M.updateRow ⟨top, ht⟩ 0) ⟨top + 1, htm⟩ - (M.updateRow ⟨top, ht⟩ 0) ⟨top + 1, htm⟩ ⟨left, hl⟩ •
      (M.updateRow ⟨top, ht⟩ 0) ⟨top, ht⟩) hB htm ?_).throws_bind fun C hC => ?_
    · refine (rd_sat (hB.rowRep htm)).bind fun v hv => ?_
      refine (rd_sat (hB.rowRep ht)).bind fun t ht => ?_
      exact accum_sat H.toEltRef hv ht hl' hcl
    exact (H.zero hy hl').bind
  · intro htm
    refine key (Q := fun r => r.Sat U _) (fun r hU e => by rw [e]; exact hU) fun B s' lead' hB hy _ => ?_
    unfold TMat.clearBelow
    rw [hB.shape.nr, forUp_self (by omega)]
    exact ⟨hB, hy⟩

/-- How the elimination ends: with an echelon form, or with a pivot in the last row that is not a unit, in the place of which there is
then a row of zeros. -/
def Ends (rep : α → R → Prop) (M0 : Matrix (Fin m) (Fin n) R) (r : TMat α × α) : Prop :=
  (∃ M', RState rep M0 r M' ∧ ∃ rk p, IsEchelon M' rk p) ∨
  ∃ (M1 : Matrix (Fin m) (Fin n) R) (s : R) (top left : ℕ) (p : ℕ → ℕ) (ht : top < m) (hl : left < n), RowEq M0 M1 s ∧ Ech M1 top left p ∧ top + 1 = m ∧
    M1 ⟨top, ht⟩ ⟨left, hl⟩ ≠ 0 ∧ ¬ IsUnit (M1 ⟨top, ht⟩ ⟨left, hl⟩) ∧ MRep rep r.1 (M1.updateRow ⟨top, ht⟩ 0) ∧ ∃ y, rep r.2 y

theorem rrLoop_dom (H : DomRef U O rep) {zero one minus_one : α} (hz : rep zero 0) (ho : rep one 1) (hmo : rep minus_one (0 - 1))
    {M0 : Matrix (Fin m) (Fin n) R} :
    ∀ k (A : TMat α) (s : α) (M : Matrix (Fin m) (Fin n) R) top left p, RState rep M0 (A, s) M → Ech M top left p → n ≤ k + left →
      (TMat.rrLoop O zero one minus_one k A s top left).May U (top + 2 ≤ m) (Ends rep M0)
  | 0, A, s, M, top, left, p, h, he, hk => by
    unfold TMat.rrLoop
    rw [h.1.shape.nr, h.1.shape.nc, if_neg (by omega)]
    exact .inl ⟨M, h, _, _, he.final (by omega)⟩
  | k + 1, A, s, M, top, left, p, h, he, hk => by
    unfold TMat.rrLoop
    rw [h.1.shape.nr, h.1.shape.nc]
    by_cases hc : top < m ∧ left < n
    · rw [if_pos hc]
      refine (findPivot_sat H.eqRef h.1 hz hc.2 (m - top) top (by omega)).may_bind fun r hr => ?_
      cases r with
      | none => exact rrLoop_dom H hz ho hmo k A s M top (left + 1) p h (he.skip hc.2 hr) (by omega)
      | some q =>
        obtain ⟨h1, h2, h3⟩ := hr
        refine (pivotSwap_sat H.toEltRef h hmo he hc.1 h2 h1 hc.2 h3).may_bind fun st hst => ?_
        obtain ⟨M1, g1, g2, g3⟩ := hst
        by_cases hu : IsUnit (M1 ⟨top, hc.1⟩ ⟨left, hc.2⟩)
        · obtain ⟨z, hyz⟩ := hu.exists_right_inv
          refine (normClear_unit H.toEltRef g1 hz ho g2 hc.1 hc.2 g3 hyz).may_bind fun st hst => ?_
          obtain ⟨M2, g4, g5⟩ := hst
          have := rrLoop_dom H hz ho hmo k st.1 st.2 M2 (top + 1) (left + 1) _ g4 g5 (by omega)
          cases e : TMat.rrLoop O zero one minus_one k st.1 st.2 (top + 1) (left + 1) with
          | throw => rw [e] at this; exact (show top + 1 + 2 ≤ m from this).trans' (by omega)
          | ok r => rw [e] at this; exact this
          | ub => rw [e] at this; exact this
          | timeout => rw [e] at this; exact this
        · obtain ⟨hA, x, hs, hR⟩ := g1
          have low := normClear_low H hA hs hz ho hc.1 hc.2 g3 hu
          by_cases htm : top + 1 < m
          · exact (low.1 htm).bind.may (by omega)
          · refine (low.2 (by omega)).may_bind fun st hst => ?_
            have e : TMat.rrLoop O zero one minus_one k st.1 st.2 (top + 1) (left + 1) = ok (st.1, st.2) := by
              cases k with
              | zero => unfold TMat.rrLoop; rw [hst.1.shape.nr, if_neg (by omega)]
              | succ k => unfold TMat.rrLoop; rw [hst.1.shape.nr, if_neg (by omega)]
            rw [e]
            exact .inr ⟨M1, x, top, left, p, hc.1, hc.2, hR, g2, by omega, g3, hu, hst⟩
    · rw [if_neg hc]
      exact .inl ⟨M, h, _, _, he.final hc⟩

theorem rrs_dom (H : DomRef U O rep) {A : TMat α} {M : Matrix (Fin m) (Fin n) R} (hm : 0 < m) (hn : 0 < n) (hA : MRep rep A M) :
    (TMat.row_reduce_below_with_scalar O A).May U (2 ≤ m) (fun r => (M = 0 ∧ MRep rep r.1 M ∧ rep r.2 0) ∨ Ends rep M r) := by
  unfold TMat.row_reduce_below_with_scalar
  refine (get_sat (hA.at hm hn)).may_bind fun a ha => ?_
  refine (H.sub ha ha).may_bind fun z hz => ?_
  rw [sub_self] at hz
  refine (dfind_one_sat H hm hn hA).may_bind fun o ho => ?_
  cases o with
  | none => exact .inl ⟨ho, hA, hz⟩
  | some one =>
    refine (H.sub hz ho.2).may_bind fun mo hmo => ?_
    rw [hA.shape.nc]
    exact (rrLoop_dom H hz ho.2 hmo n A one M 0 0 id ⟨hA, 1, ho.2, RowEq.refl _⟩ (Ech.init _ _) (by omega)).mono fun r hr => .inr hr

/-- The product of the diagonal. -/
theorem diag_sat (H : EltRef U O rep) {A : TMat α} {M : Matrix (Fin n) (Fin n) R} (hA : MRep rep A M) {s : α} {x : R} (hs : rep s x) :
    (forUp 0 n s fun i d => do
      let y ← A.get i i
      O.mul d y).Sat U fun d => rep d (x * ∏ j, M j j) := by
  refine (forUp_sat (fun i d => rep d (x * ∏ j : Fin n, if (j : ℕ) < i then M j j else 1)) (Nat.zero_le _) (by simpa using hs) ?_).mono fun d hd => ?_
  · intro i d _ hi hd
    refine (get_sat (hA.at hi hi)).bind fun x hx => ?_
    refine (H.mul hd hx).mono fun r hr => ?_
    convert hr using 1
    rw [mul_assoc]
    congr 1
    have : ∀ j : Fin n, (if (j : ℕ) < i + 1 then M j j else 1) = (if (j : ℕ) < i then M j j else 1) * if j = ⟨i, hi⟩ then M j j else 1 := by
      intro j
      by_cases h1 : (j : ℕ) < i
      · rw [if_pos (by omega), if_pos h1, if_neg (by rintro rfl; simp at h1), mul_one]
      · by_cases h2 : j = ⟨i, hi⟩
        · subst h2; simp
        · rw [if_neg, if_neg h1, if_neg h2, mul_one]
          intro h; exact h2 (Fin.ext (by simp; omega))
    rw [Finset.prod_congr rfl fun j _ => this j, Finset.prod_mul_distrib]; simp
  · convert hd using 2
    exact Finset.prod_congr rfl fun j _ => by simp

/-- With a last pivot, the determinant is that pivot up to a unit. -/
theorem ech_last {M : Matrix (Fin n) (Fin n) R} {top left : ℕ} {p : ℕ → ℕ} (he : Ech M top left p) (ht : top < n) (hl : left < n)
    (htn : top + 1 = n) : M.det = M ⟨top, ht⟩ ⟨left, hl⟩ := by
  have hpi : ∀ i, i < top → i ≤ p i := by
    intro i
    induction i with
    | zero => intro _; omega
    | succ i ih => intro hi; have := ih (by omega); have := he.mono i (i + 1) (by omega) hi; omega
  have hlt : left = top := by
    by_contra hne
    by_cases h0 : top = 0
    · omega
    · have := hpi (top - 1) (by omega); have := he.lt (top - 1) (by omega); omega
  have hpe : ∀ k i, i + k = top → i < top → p i = i := by
    intro k
    induction k with
    | zero => intro i h1 h2; omega
    | succ k ih =>
      intro i h1 h2
      have hge := hpi i h2
      by_cases h3 : i + 1 < top
      · have := he.mono i (i + 1) (by omega) h3
        have := ih (i + 1) (by omega) h3
        omega
      · have := he.lt i h2; omega
  subst hlt
  have hup : ∀ i j : Fin n, j < i → M i j = 0 := by
    intro i j hij
    by_cases hi : (i : ℕ) < left
    · exact he.left0 i j hi (by rw [hpe (left - i) i (by omega) hi]; exact hij)
    · exact he.below i j (by omega) (by have := i.2; have : (j : ℕ) < i := hij; omega)
  rw [Matrix.det_of_upperTriangular (fun i j hij => hup i j hij)]
  rw [Finset.prod_eq_single (⟨left, ht⟩ : Fin n)]
  · intro i _ hi
    have hi' : (i : ℕ) < left := by
      have := i.2
      have : (i : ℕ) ≠ left := fun h => hi (Fin.ext h)
      omega
    exact he.one i i hi' (hpe (left - i) i (by omega) hi').symm
  · simp

open Classical in
/-- The determinant over a domain: what is returned is the determinant if that is a unit, and zero otherwise. -/
theorem det_dom (H : DomRef U O rep) {A : TMat α} {M : Matrix (Fin n) (Fin n) R} (hn : 0 < n) (hA : MRep rep A M) :
    (TMat.det O A).May U (2 ≤ n) (fun r => rep r (if IsUnit M.det then M.det else 0)) := by
  unfold TMat.det TMat.is_square
  rw [hA.shape.nr, hA.shape.nc]
  simp only [beq_self_eq_true, Bool.not_true, Bool.false_eq_true, if_false]
  refine (rrs_dom H hn hn hA).bind fun r hr => ?_
  haveI := Fin.pos_iff_nonempty.mp hn
  have hz : (if IsUnit (0 : R) then (0 : R) else 0) = 0 := by simp
  rcases hr with ⟨h0, h1, h2⟩ | ⟨M', ⟨h1, s, hs, P, hP, hM⟩, rk, p, he⟩ | ⟨M1, s, top, left, p, ht, hl, ⟨P, hP, hM⟩, he, htn, hne, hu, h1, y, hy⟩
  · refine (diag_sat H.toEltRef h1 h2).may.mono fun d hd => ?_
    rw [h0, Matrix.det_zero, hz]
    simpa using hd
  · refine (diag_sat H.toEltRef h1 hs).may.mono fun d hd => ?_
    rw [← he.det_eq] at hd
    have e : s * M'.det = M.det := by rw [hM, Matrix.det_mul, ← mul_assoc, hP, one_mul]
    rw [e] at hd
    by_cases hu : IsUnit M.det
    · rw [if_pos hu]; exact hd
    · rw [if_neg hu]
      have : M'.det = 0 := by
        have hd0 : M'.det = 0 ∨ M'.det = 1 := by
          rw [he.det_eq]
          by_cases hrk : rk = n
          · subst hrk
            right
            refine Finset.prod_eq_one fun i _ => ?_
            have := he.one i
            have hp : ∀ k (i : Fin rk), (i : ℕ) + k + 1 = rk → p i = i := by
              have hge : ∀ (a : ℕ) (ha : a < rk), a ≤ p ⟨a, ha⟩ := by
                intro a
                induction a with
                | zero => intro _; omega
                | succ a ih =>
                  intro ha
                  have h1 := ih (by omega)
                  have h2 : p ⟨a, by omega⟩ < p ⟨a + 1, ha⟩ := he.mono (by show a < a + 1; omega)
                  have h2 : (p ⟨a, by omega⟩ : ℕ) < p ⟨a + 1, ha⟩ := h2
                  omega
              intro k
              induction k with
              | zero =>
                intro i hi
                have := hge i i.2
                exact Fin.ext (by have := (p i).2; simp only [Fin.eta] at *; omega)
              | succ k ih =>
                intro i hi
                have h1 := hge i i.2
                have h2 : p i < p ⟨i + 1, by omega⟩ := he.mono (by show (i : ℕ) < i + 1; omega)
                have h3 := ih ⟨i + 1, by omega⟩ (by simp only; omega)
                rw [h3] at h2
                exact Fin.ext (by have h2 : (p i : ℕ) < i + 1 := h2; simp only [Fin.eta] at *; omega)
            rw [hp (rk - i - 1) i (by have := i.2; omega)] at this
            exact this
          · left
            refine Finset.prod_eq_zero (Finset.mem_univ (⟨n - 1, by omega⟩ : Fin n)) ?_
            rw [he.zero ⟨n - 1, by omega⟩ (by have := he.le; simp only; omega)]; rfl
        rcases hd0 with h | h
        · exact h
        · rw [h, mul_one] at e
          exact absurd (by rw [← e]; exact IsUnit.of_mul_eq_one _ hP) hu
      rw [← e, this, mul_zero] at hd; exact hd
  · refine (diag_sat H.toEltRef h1 hy).may.mono fun d hd => ?_
    rw [if_neg]
    · rw [Finset.prod_eq_zero (Finset.mem_univ (⟨top, ht⟩ : Fin n)) (by rw [Matrix.updateRow_self]; rfl), mul_zero] at hd
      exact hd
    · intro hd'
      apply hu
      rw [← ech_last he ht hl htn, hM, Matrix.det_mul]
      exact (IsUnit.of_mul_eq_one s (by rw [mul_comm]; exact hP)).mul hd'

/-- If the first non-zero entry of the first column is not a unit, the determinant of a larger matrix is refused. -/
theorem det_refused (H : DomRef U O rep) {A : TMat α} {M : Matrix (Fin (n + 2)) (Fin (n + 2)) R} (hA : MRep rep A M) {i : Fin (n + 2)}
    (h1 : ∀ j, j < i → M j 0 = 0) (h2 : M i 0 ≠ 0) (h3 : ¬ IsUnit (M i 0)) : (TMat.det O A).Throws U := by
  unfold TMat.det TMat.is_square
  rw [hA.shape.nr, hA.shape.nc]
  simp only [beq_self_eq_true, Bool.not_true, Bool.false_eq_true, if_false]
  refine Throws.bind ?_
  unfold TMat.row_reduce_below_with_scalar
  refine (get_sat (hA.at (Nat.succ_pos _) (Nat.succ_pos _))).throws_bind fun a ha => ?_
  refine (H.sub ha ha).throws_bind fun z hz => ?_
  rw [sub_self] at hz
  refine (dfind_one_sat H (Nat.succ_pos _) (Nat.succ_pos _) hA).throws_bind fun o ho => ?_
  cases o with
  | none => exact absurd (by rw [show M = 0 from ho]; rfl) h2
  | some one =>
    refine (H.sub hz ho.2).throws_bind fun mo hmo => ?_
    rw [hA.shape.nc]
    unfold TMat.rrLoop
    rw [hA.shape.nr, hA.shape.nc, if_pos ⟨by omega, by omega⟩]
    refine (findPivot_first H.eqRef hA hz (Nat.succ_pos _) (n + 2) 0 (by omega)).throws_bind fun r hr => ?_
    cases r with
    | none => exact absurd (hr i (Nat.zero_le _)) h2
    | some q =>
      obtain ⟨-, g1, hq, g2⟩ := hr
      have hqi : (⟨q, hq⟩ : Fin (n + 2)) = i := by
        rcases lt_trichotomy (⟨q, hq⟩ : Fin (n + 2)) i with h | h | h
        · exact absurd (h1 _ h) g2
        · exact h
        · exact absurd (g1 i (Nat.zero_le _) h) h2
      have sw : (TMat.pivotSwap O A one mo 0 q).Sat U fun r => ∃ M' : Matrix (Fin (n + 2)) (Fin (n + 2)) R, MRep rep r.1 M' ∧ (∃ y, rep r.2 y) ∧ M' 0 0 = M i 0 := by
        unfold TMat.pivotSwap
        by_cases h0 : 0 = q
        · rw [if_neg (by simp [h0])]
          subst h0
          exact ⟨M, hA, ⟨1, ho.2⟩, by rw [← hqi]; rfl⟩
        · rw [if_pos h0]
          refine (swap_sat hA (Nat.succ_pos _) hq).bind fun B hB => ?_
          refine (H.mul ho.2 hmo).bind fun s' hs' => ?_
          refine ⟨_, hB, ⟨_, hs'⟩, ?_⟩
          rw [Matrix.submatrix_apply, ← hqi]
          congr 1
      refine sw.throws_bind fun st hst => ?_
      obtain ⟨M', hB, ⟨y, hy⟩, e⟩ := hst
      exact ((normClear_low H hB hy hz ho.2 (Nat.succ_pos _) (Nat.succ_pos _) (by
        show M' 0 0 ≠ 0; rw [e]; exact h2) (by show ¬ IsUnit (M' 0 0); rw [e]; exact h3)).1 (by omega)).bind

/-- The entries that come from a field. -/
theorem const_ref {F : Type} [Field F] [Nontrivial R] (φ : F →+* R) (H : EltRef U O rep) : EltRef U O fun a x => rep a (φ x) where
  add ha hb := by simpa using H.add ha hb
  sub ha hb := by simpa using H.sub ha hb
  mul ha hb := by simpa using H.mul ha hb
  div {a b x y z} ha hb h := by
    have := H.div (z := φ z) ha hb (by rw [← map_mul, h, map_one])
    simpa using this
  eq ha hb := (H.eq ha hb).mono fun r hr => hr.trans φ.injective.eq_iff

/-- The determinant of a matrix with entries in a field is right. -/
theorem det_const {F : Type} [Field F] [Nontrivial R] (φ : F →+* R) (H : EltRef U O rep) {A : TMat α} {M : Matrix (Fin n) (Fin n) F} (hn : 0 < n)
    (hA : MRep rep A (M.map φ)) : (TMat.det O A).Sat U fun r => rep r (M.map φ).det := by
  have := det_sat (const_ref φ H) (M := M) hn ⟨hA.shape, fun i j => by simpa using hA.ent i j⟩
  rwa [show (M.map φ).det = φ M.det from (RingHom.map_det φ M).symm]

end dom
end Spffl
