/-
fp_poly_factor.cpp / f2n_poly_factor.cpp: factorization, irreducibility test, search, roots; totients.
-/
import Verif.Proof.CFactor
import Verif.Proof.F2Irr
import Verif.Proof.IntMath

set_option linter.unusedSectionVars false

namespace Spffl
open Res Polynomial
open CPoly (PRep)

variable {α K : Type} [Field K] [Fintype K]

/-- what `int_power(b, e)` needs: its last, unused, squaring must not overflow -/
def PowOk (b e : ℕ) : Prop := e = 0 ∨ b ^ (2 ^ (Nat.log 2 e + 1)) ≤ 2147483647

theorem int_power_ok {b e : ℕ} (h : PowOk b e) (he : e ≤ 2147483647) : int_power b e = ok ((b ^ e : ℕ) : Int) := by
  have h1 : toU32 e = e := by unfold toU32; omega
  have h2 := powLoop_eq (b : Int) 32 0 0 e (by norm_num) (by omega)
  simp only [pow_zero, pow_one] at h2
  rw [int_power, h1, h2]
  rcases h with rfl | h
  · simp
  · split
    · rename_i h0; subst h0; simp
    · rw [if_pos]
      · simp
      · unfold InInt
        rw [Nat.zero_add]
        have : ((b : Int) ^ 2 ^ (Nat.log 2 e + 1)) = ((b ^ 2 ^ (Nat.log 2 e + 1) : ℕ) : Int) := by push_cast; rfl
        rw [this]; omega

theorem int_power_ub {b e : ℕ} (h : ¬ PowOk b e) (he : e ≤ 2147483647) : int_power b e = ub := by
  have h1 : toU32 e = e := by unfold toU32; omega
  have h2 := powLoop_eq (b : Int) 32 0 0 e (by norm_num) (by omega)
  simp only [pow_zero, pow_one] at h2
  unfold PowOk at h
  rw [int_power, h1, h2, if_neg (by tauto), if_neg]
  unfold InInt
  rw [Nat.zero_add]
  have : ((b : Int) ^ 2 ^ (Nat.log 2 e + 1)) = ((b ^ 2 ^ (Nat.log 2 e + 1) : ℕ) : Int) := by push_cast; rfl
  rw [this]
  have : ¬ (b ^ 2 ^ (Nat.log 2 e + 1) ≤ 2147483647) := fun hh => h (Or.inr hh)
  omega

theorem PowOk.le {b e : ℕ} (h : PowOk b e) (hb : 1 ≤ b) : b ^ e ≤ 2147483647 := by
  rcases h with rfl | h
  · simp
  · refine le_trans (Nat.pow_le_pow_right hb ?_) h
    exact (Nat.lt_pow_succ_log_self (by norm_num) e).le

namespace CFac
variable {X : FCtx α} {rep : α → K → Prop} {kv : K → ℕ} {κ : ℕ → K} {p : ℕ} {n : ℕ}

/-! ### factor -/

theorem factor_sat (H : FRef X rep kv κ p) {a : CPoly α} {f : K[X]} (ha : PRep rep a f) (hpos : 0 < f.natDegree)
    (hmax : (f.natDegree : Int) ≤ INT_MAX) :
    (factor X a).Sat False (fun fi => ∃ N u, Facs rep kv fi N u ∧ MOut true (f * C f.leadingCoeff⁻¹) N ∧
      (f.leadingCoeff = 1 ∧ u = none ∨ f.leadingCoeff ≠ 1 ∧ u = some (C f.leadingCoeff))) := by
  have hf0 : f ≠ 0 := by rintro rfl; simp at hpos
  have hl0 : f.leadingCoeff ≠ 0 := leadingCoeff_ne_zero.mpr hf0
  unfold factor
  refine (CPoly.copy_sat ha).bind fun a' ha' => ?_
  obtain ⟨ha', -, -⟩ := ha'
  refine (rd_sat ha'.c0).bind fun c0 hc0 => ?_
  refine (H.ref.psub 0 (by decide) hc0).bind fun zero hzero => (H.ref.psub 1 (by decide) hc0).bind fun one hone => ?_
  rw [Int.cast_zero] at hzero; rw [Int.cast_one] at hone
  rw [← ha'.deg, if_neg (by omega)]
  unfold factorLead
  refine (CPoly.get_coeff_sat H.ref ha' a'.degree).bind fun c hc => ?_
  rw [← ha'.deg, coeff_natDegree] at hc
  refine (H.ref.eq hc hzero).bind fun b0 hb0 => (H.ref.eq hc hone).bind fun b1 hb1 => ?_
  have hb0' : b0 = false := by
    cases b0 with
    | false => rfl
    | true => exact absurd (hb0.mp rfl) hl0
  subst hb0'
  cases b1 with
  | true =>
    have h1 := hb1.mp rfl
    simp only [Bool.not_false, Bool.not_true, Bool.and_false, Bool.false_eq_true, if_false]
    have := pre_berlekamp_spec H true (a'.degree + 1) a' f FacInfo.empty 0 none ha' h1 hpos (by rw [ha'.deg]; omega)
      (by simpa using hmax) FacInfo.msp_empty
    refine this.mono fun fi hfi => ?_
    obtain ⟨N, h2, h3⟩ := hfi
    rw [zero_add] at h2
    exact ⟨N, none, h2, by rw [h1, inv_one, C_1, mul_one]; exact h3, Or.inl ⟨h1, rfl⟩⟩
  | false =>
    have h1 : f.leadingCoeff ≠ 1 := fun h => by simpa using hb1.mpr h
    simp only [Bool.not_false, Bool.and_true, if_true]
    refine (CPoly.const_sat H.ref hc).bind fun l hl => ?_
    have hins : FacInfo.insert_unit (CPoly.ops X.O) FacInfo.empty l = ok ⟨[], some l⟩ := rfl
    rw [hins, ok_bind]
    refine (CPoly.sdiv_sat H.ref ha' hc (mul_inv_cancel₀ hl0)).bind fun a2 ha2 => ?_
    have hd := natDegree_monic hf0
    have hfi : Facs rep kv ⟨[], some l⟩ 0 (some (C f.leadingCoeff)) :=
      ⟨[], ⟨List.Forall₂.nil, Option.Rel.some hl⟩, by simp [FacInfo.Sorted], by simp [FacInfo.toMs], by simp⟩
    have := pre_berlekamp_spec H true (a2.degree + 1) a2 _ ⟨[], some l⟩ 0 (some (C f.leadingCoeff)) ha2 (monic_mul_leadingCoeff_inv hf0) (by omega)
      (by rw [ha2.deg]; omega) (by rw [hd]; simpa using hmax) hfi
    refine this.mono fun fi hfi => ?_
    obtain ⟨N, h2, h3⟩ := hfi
    rw [zero_add] at h2
    exact ⟨N, _, h2, h3, Or.inr ⟨h1, rfl⟩⟩

theorem factor_const (H : FRef X rep kv κ p) {a : CPoly α} {f : K[X]} (ha : PRep rep a f) (h0 : f.natDegree = 0) :
    (factor X a).Sat False (fun fi => fi.facs = [] ∧ ∃ b, fi.unit = some b ∧ PRep rep b f) := by
  unfold factor
  refine (CPoly.copy_sat ha).bind fun a' ha' => ?_
  obtain ⟨ha', -, -⟩ := ha'
  refine (rd_sat ha'.c0).bind fun c0 hc0 => ?_
  refine (H.ref.psub 0 (by decide) hc0).bind fun zero hzero => (H.ref.psub 1 (by decide) hc0).bind fun one hone => ?_
  rw [← ha'.deg, if_pos h0]
  have hins : FacInfo.insert_unit (CPoly.ops X.O) FacInfo.empty a' = ok ⟨[], some a'⟩ := rfl
  rw [hins, Sat_ok]
  exact ⟨rfl, a', rfl, ha'⟩

theorem irreducible_monic {f : K[X]} (hf : f ≠ 0) : Irreducible (f * C f.leadingCoeff⁻¹) ↔ Irreducible f :=
  irreducible_mul_isUnit (isUnit_C.mpr (IsUnit.mk0 _ (inv_ne_zero (leadingCoeff_ne_zero.mpr hf))))

theorem MOut.irr_iff {f : K[X]} {N : Multiset K[X]} {full : Bool} (h : MOut full f N) (hpos : 0 < f.natDegree) : N.card = 1 ↔ Irreducible f := by
  refine ⟨h.one, fun hirr => ?_⟩
  have hp := h.card_pos hpos
  by_contra hne
  obtain ⟨a, ha⟩ := Multiset.card_pos_iff_exists_mem.mp hp
  obtain ⟨N', rfl⟩ := Multiset.exists_cons_of_mem ha
  have hp' : 0 < N'.card := by rw [Multiset.card_cons] at hne; omega
  obtain ⟨b, hb⟩ := Multiset.card_pos_iff_exists_mem.mp hp'
  have hprod := h.prod
  rw [Multiset.prod_cons] at hprod
  rcases hirr.isUnit_or_isUnit hprod.symm with hu | hu
  · exact not_unit_of_natDegree_pos (h.pos a (Multiset.mem_cons_self _ _)) hu
  · exact not_unit_of_natDegree_pos (h.pos b (Multiset.mem_cons_of_mem hb)) (isUnit_of_dvd_unit (Multiset.dvd_prod hb) hu)

theorem is_irreducible_sat (H : FRef X rep kv κ p) {a : CPoly α} {f : K[X]} (ha : PRep rep a f) (hmax : (f.natDegree : Int) ≤ INT_MAX) :
    (is_irreducible X a).Sat False (fun b => b = true ↔ Irreducible f) := by
  unfold is_irreducible
  rw [← ha.deg]
  split
  · rename_i h
    rw [Sat_ok]
    simp only [Bool.false_eq_true, false_iff]
    intro hi; have := hi.natDegree_pos; omega
  · rename_i h0
    have hf0 : f ≠ 0 := by rintro rfl; simp at h0
    split
    · rename_i h
      rw [Sat_ok]
      simp only [true_iff]
      exact irreducible_of_degree_eq_one (by rw [degree_eq_natDegree hf0, h]; rfl)
    · refine (monic_sat H ha hf0).bind fun g hg => ?_
      have hd := natDegree_monic hf0
      refine (pre_berlekamp_spec H false (g.degree + 1) g _ FacInfo.empty 0 none hg (monic_mul_leadingCoeff_inv hf0) (by omega) (by rw [hg.deg]; omega)
        (by rw [hd]; simpa using hmax) FacInfo.msp_empty).bind fun fi hfi => ?_
      obtain ⟨N, h1, h2⟩ := hfi
      rw [zero_add] at h1
      have hcard := h2.card_le
      rw [FacInfo.num_factors_ok h1 (by omega), ok_bind, Sat_ok]
      simp only [beq_iff_eq, Nat.cast_eq_one]
      rw [h2.irr_iff (by omega), irreducible_monic hf0]

/-! ### search -/

theorem coeff_zero_of_irreducible {f : K[X]} (h : Irreducible f) (hd : 2 ≤ f.natDegree) : f.coeff 0 ≠ 0 := by
  intro h0
  have hX : Polynomial.X ∣ f := X_dvd_iff.mpr h0
  have := (irreducible_X.associated_of_dvd h hX)
  have h1 := natDegree_eq_of_degree_eq (degree_eq_degree_of_associated this)
  rw [natDegree_X] at h1; omega

local notation "key" => polyKey (Fintype.card K) kv

theorem findLoop_sat (H : FRef X rep kv κ p) {zero : α} (hz : rep zero 0) {d : ℕ} (hmax : (d : Int) ≤ INT_MAX)
    {w : K[X]} (hw : Irreducible w) (hwd : w.natDegree = d) (hw0 : w.coeff 0 ≠ 0) :
    ∀ (k : ℕ) (rv : CPoly α) (f : K[X]), PRep rep rv f → Fintype.card K ^ d ≤ key f →
    (∀ g : K[X], Irreducible g → g.natDegree = d → g.coeff 0 ≠ 0 → key f ≤ key g) →
    key w < key f + k →
    (findLoop X zero d k rv).Sat False (fun r => ∃ f, PRep rep r f ∧ Irreducible f ∧ f.natDegree = d ∧ f.coeff 0 ≠ 0 ∧
      ∀ g : K[X], Irreducible g → g.natDegree = d → g.coeff 0 ≠ 0 → key f ≤ key g)
  | 0, rv, f, _, _, hle, hk => by
    have h1 := hle w hw hwd hw0
    omega
  | k + 1, rv, f, hr, hge, hle, hk => by
    have h1 := hle w hw hwd hw0
    have h2 := H.dig.key_lt w
    rw [hwd] at h2
    have hd : f.natDegree = d := H.dig.natDegree_of_key Fintype.one_lt_card hge (by omega)
    have step : (Irreducible f → f.coeff 0 ≠ 0 → False) → ((X.incr rv).bind (findLoop X zero d k)).Sat False (fun r => ∃ f, PRep rep r f ∧ Irreducible f ∧ f.natDegree = d ∧ f.coeff 0 ≠ 0 ∧
      ∀ g : K[X], Irreducible g → g.natDegree = d → g.coeff 0 ≠ 0 → key f ≤ key g) := by
      intro hno
      refine (H.incr hr).bind fun r hh => ?_
      obtain ⟨g, hg, hkey⟩ := hh
      refine findLoop_sat H hz hmax hw hwd hw0 k r g hg (by omega) (fun g' h3 h4 h5 => ?_) (by omega)
      have h6 := hle g' h3 h4 h5
      have h7 : key f ≠ key g' := fun h => by
        have := H.dig.key_inj h
        subst this; exact hno h3 h5
      omega
    unfold findLoop
    rw [← hr.deg, hd, if_pos rfl]
    refine (CPoly.get_coeff_sat H.ref hr 0).bind fun c hc => (H.ref.eq hc hz).bind fun z hzz => ?_
    split
    · rename_i hzt; exact step fun _ h => h (hzz.mp hzt)
    · rename_i hzf
      have h0 : f.coeff 0 ≠ 0 := fun h => hzf (hzz.mpr h)
      refine (is_irreducible_sat H hr (by rw [hd]; exact hmax)).bind fun b hb => ?_
      split
      · rename_i hbt
        rw [Sat_ok]
        exact ⟨f, hr, hb.mp hbt, hd, h0, hle⟩
      · rename_i hbf
        exact step fun h _ => hbf (hb.mpr h)

theorem find_irr_sat (H : FRef X rep kv κ p) {zero one : α} (hz : rep zero 0) (h1 : rep one 1) {d : ℕ} (hd : 1 ≤ d) (hmax : (d : Int) ≤ INT_MAX) :
    (find_irr X zero one (Fintype.card K) d).Sat False (fun r => ∃ f, PRep rep r f ∧ f.Monic ∧ Irreducible f ∧ f.natDegree = d ∧ f.coeff 0 ≠ 0 ∧
      ∀ g : K[X], Irreducible g → g.natDegree = d → g.coeff 0 ≠ 0 → key f ≤ key g) := by
  unfold find_irr
  refine (CPoly.const_sat H.ref hz).bind fun r0 hr0 => ?_
  rw [C_0] at hr0
  refine (CPoly.set_coeff_sat H.ref hr0 d h1).bind fun r1 hr1 => ?_
  have hX : (0 : K[X]).update d 1 = Polynomial.X ^ d := by
    ext t; rw [coeff_update_apply, coeff_X_pow]; simp
  rw [hX] at hr1
  rw [if_neg (by omega), Int.toNat_natCast]
  have hw : ∃ w : K[X], w.Monic ∧ Irreducible w ∧ w.natDegree = d ∧ w.coeff 0 ≠ 0 := by
    rcases Nat.lt_or_ge 1 d with h | h
    · obtain ⟨w, h1, h2, h3⟩ := exists_irreducible_degree (K := K) (n := d) (by omega)
      exact ⟨w, h1, h2, h3, coeff_zero_of_irreducible h2 (by omega)⟩
    · refine ⟨Polynomial.X + C 1, monic_X_add_C 1, irreducible_of_degree_eq_one (degree_X_add_C 1), by rw [natDegree_X_add_C]; omega, by simp⟩
  obtain ⟨w, w0, w1, w2, w3⟩ := hw
  have hkw := H.dig.key_monic H.one w0
  rw [w2] at hkw
  refine (findLoop_sat H hz hmax w1 w2 w3 _ r1 _ hr1 (H.dig.key_X_pow H.one d).ge (fun g hg hgd _ => ?_) ?_).mono fun r hr => ?_
  · rw [H.dig.key_X_pow H.one, ← hgd]; exact H.dig.le_key hg.ne_zero
  · rw [H.dig.key_X_pow H.one]; omega
  · obtain ⟨f, a1, a2, a3, a4, a5⟩ := hr
    refine ⟨f, a1, H.dig.monic_of_key H.one a2.ne_zero ?_, a2, a3, a4, a5⟩
    rw [a3]; exact (a5 w w1 w2 w3).trans_lt hkw

theorem find_irr_throw (H : FRef X rep kv κ p) {zero one : α} (hz : rep zero 0) (h1 : rep one 1) (q : ℕ) {d : Int} (hd : d < 1) :
    find_irr X zero one q d = throw := by
  unfold find_irr
  obtain ⟨r0, e0, hr0⟩ := sat_false.mp (CPoly.const_sat H.ref hz)
  rw [e0, ok_bind]
  rcases lt_or_eq_of_le (show d ≤ 0 by omega) with h | rfl
  · have : CPoly.set_coeff X.O r0 d one = throw := by unfold CPoly.set_coeff; rw [if_pos h]
    rw [this]; rfl
  · obtain ⟨r1, e1, -⟩ := sat_false.mp (CPoly.set_coeff_sat H.ref hr0 0 h1)
    rw [show ((0 : ℕ) : Int) = 0 from rfl] at e1
    rw [e1, ok_bind, if_pos (by omega)]

/-! ### the factor list -/

theorem list_of_facs {fi : FacInfo (CPoly α)} {u : Option K[X]} {N : Multiset K[X]} {f : K[X]} (h : Facs rep kv fi N u) (hout : MOut true f N) :
    ∃ l : List (K[X] × ℕ), List.Forall₂ (FacInfo.PRel (PRep rep)) fi.facs l ∧ Option.Rel (PRep rep) fi.unit u ∧
      l.Pairwise (fun a b => key a.1 < key b.1) ∧ (∀ q ∈ l, Irreducible q.1 ∧ q.1.Monic ∧ 0 < q.2) ∧ (l.map fun q => q.1 ^ q.2).prod = f := by
  obtain ⟨l, hl, hs, hN, hp⟩ := h
  refine ⟨l, hl.1, hl.2, hs, fun q hq => ?_, by rw [← FacInfo.toMs_prod, hN, hout.prod]⟩
  have hm : q.1 ∈ N := hN ▸ FacInfo.mem_toMs hq (hp q hq)
  exact ⟨hout.irr rfl _ hm, hout.monic _ hm, hp q hq⟩

/-! ### roots -/

theorem rootsOf_sat (H : FRef X rep kv κ p) : ∀ (fs : List (CPoly α × Int)) (l : List (K[X] × ℕ)), List.Forall₂ (FacInfo.PRel (PRep rep)) fs l →
    l.Pairwise (fun a b => key a.1 < key b.1) → (∀ q ∈ l, Irreducible q.1 ∧ q.1.Monic ∧ 0 < q.2) →
    (rootsOf X fs).Sat False (fun rs => ∃ ys : List K, List.Forall₂ rep rs ys ∧ ys.Nodup ∧ ∀ y, y ∈ ys ↔ ∃ q ∈ l, q.1.eval y = 0)
  | [], [], _, _, _ => by
    unfold rootsOf; rw [Sat_ok]; exact ⟨[], List.Forall₂.nil, List.nodup_nil, by simp⟩
  | a :: fs, q :: l, h, hs, hq => by
    cases h with
    | cons ha hb =>
    rw [List.pairwise_cons] at hs
    have ih := rootsOf_sat H fs l hb hs.2 (fun r hr => hq r (by simp [hr]))
    obtain ⟨hirr, hmon, -⟩ := hq q (by simp)
    unfold rootsOf
    rw [← ha.1.deg]
    split
    · rename_i hd
      have hq1 : q.1 = Polynomial.X + C (q.1.coeff 0) := hmon.eq_X_add_C hd
      have hc1 : q.1.coeff 1 = 1 := by rw [← hd]; exact hmon
      refine (CPoly.get_coeff_sat H.ref ha.1 1).bind fun c1 hcc1 => (CPoly.get_coeff_sat H.ref ha.1 0).bind fun c0 hcc0 => ?_
      rw [hc1] at hcc1
      refine (H.ref.neg hcc0).bind fun n hn => (H.ref.div hn hcc1 (mul_one 1)).bind fun r hr => ih.bind fun rs hrs => ?_
      obtain ⟨ys, h1, h2, h3⟩ := hrs
      rw [Sat_ok]
      rw [mul_one] at hr
      refine ⟨_, List.Forall₂.cons hr h1, List.nodup_cons.mpr ⟨?_, h2⟩, fun y => ?_⟩
      · intro hm
        obtain ⟨g, hg, hg0⟩ := (h3 _).mp hm
        obtain ⟨gi, gm, -⟩ := hq g (by simp [hg])
        have hlt := hs.1 g hg
        have hdvd : q.1 ∣ g.1 := by
          rw [hq1, ← sub_neg_eq_add, ← C_neg, dvd_iff_isRoot]; exact hg0
        have := eq_of_monic_of_associated hmon gm (hirr.associated_of_dvd gi hdvd)
        rw [this] at hlt; exact lt_irrefl _ hlt
      · rw [List.mem_cons, h3]
        constructor
        · rintro (rfl | ⟨g, hg, hg0⟩)
          · refine ⟨q, by simp, ?_⟩
            rw [hq1]; simp
          · exact ⟨g, by simp [hg], hg0⟩
        · rintro ⟨g, hg, hg0⟩
          rcases List.mem_cons.mp hg with rfl | hg
          · left
            rw [hq1] at hg0
            simp only [eval_add, eval_X, eval_C] at hg0
            exact eq_neg_of_add_eq_zero_left hg0
          · exact Or.inr ⟨g, hg, hg0⟩
    · rename_i hd
      refine ih.mono fun rs hrs => ?_
      obtain ⟨ys, h1, h2, h3⟩ := hrs
      refine ⟨ys, h1, h2, fun y => ?_⟩
      rw [h3]
      constructor
      · rintro ⟨g, hg, hg0⟩; exact ⟨g, by simp [hg], hg0⟩
      · rintro ⟨g, hg, hg0⟩
        rcases List.mem_cons.mp hg with rfl | hg
        · exfalso
          have := degree_eq_one_of_irreducible_of_root hirr hg0
          exact hd (natDegree_eq_of_degree_eq_some this)
        · exact ⟨g, hg, hg0⟩

theorem roots_sat (H : FRef X rep kv κ p) {a : CPoly α} {f : K[X]} (ha : PRep rep a f) (hf : f ≠ 0) (hmax : (f.natDegree : Int) ≤ INT_MAX) :
    (roots X a).Sat False (fun r => ∃ ys : List K, ys.Nodup ∧ (∀ y, y ∈ ys ↔ f.eval y = 0) ∧
      match r with
      | none => ys = []
      | some rs => ys ≠ [] ∧ List.Forall₂ rep rs ys) := by
  unfold roots
  rcases Nat.eq_zero_or_pos f.natDegree with h0 | hpos
  · refine (factor_const H ha h0).bind fun fi hfi => ?_
    rw [hfi.1]
    unfold rootsOf
    rw [ok_bind, if_pos List.length_nil, Sat_ok]
    refine ⟨[], List.nodup_nil, fun y => ?_, rfl⟩
    rw [eq_C_of_natDegree_eq_zero h0] at hf ⊢
    simpa using hf
  · refine (factor_sat H ha hpos hmax).bind fun fi hfi => ?_
    obtain ⟨N, u, h1, h2, -⟩ := hfi
    obtain ⟨l, g1, -, g3, g4, g5⟩ := list_of_facs h1 h2
    refine (rootsOf_sat H fi.facs l g1 g3 g4).bind fun rs hrs => ?_
    obtain ⟨ys, k1, k2, k3⟩ := hrs
    have hev : ∀ y, y ∈ ys ↔ f.eval y = 0 := by
      intro y
      rw [k3]
      have e1 : f.eval y = 0 ↔ (f * C f.leadingCoeff⁻¹).eval y = 0 := by
        rw [eval_mul, eval_C, mul_eq_zero, or_iff_left (inv_ne_zero (leadingCoeff_ne_zero.mpr hf))]
      rw [e1, ← g5, eval_list_prod, List.prod_eq_zero_iff, List.map_map, List.mem_map]
      constructor
      · rintro ⟨q, hq, h⟩; exact ⟨q, hq, by have := (g4 q hq).2.2; simp [h]; omega⟩
      · rintro ⟨q, hq, h⟩; exact ⟨q, hq, by simpa using (pow_eq_zero_iff (g4 q hq).2.2.ne').mp (by simpa using h)⟩
    have hlen := k1.length_eq
    split
    · rename_i hl0
      rw [Sat_ok]
      exact ⟨ys, k2, hev, List.eq_nil_of_length_eq_zero (by omega)⟩
    · rename_i hl0
      rw [Sat_ok]
      exact ⟨ys, k2, hev, by rintro rfl; simp at hlen; exact hl0 (by simp [hlen]), k1⟩

/-! ### totients -/

theorem totientStep_ok (q : ℕ) (hq : 2 ≤ q) {a : CPoly α × Int} {b : K[X] × ℕ} (h : FacInfo.PRel (PRep rep) a b) (hb : 0 < b.2) {rv : ℕ} (hrv : 0 < rv)
    (hd : 0 < b.1.natDegree) (hp1 : PowOk q (b.1.natDegree * (b.2 - 1))) (hp2 : PowOk q b.1.natDegree)
    (hsz : b.1.natDegree * b.2 ≤ 2147483647)
    (hlt : rv * (q ^ (b.1.natDegree * (b.2 - 1)) * (q ^ b.1.natDegree - 1)) ≤ 2147483647) :
    totientStep q a rv = ok ((rv * (q ^ (b.1.natDegree * (b.2 - 1)) * (q ^ b.1.natDegree - 1)) : ℕ) : Int) := by
  obtain ⟨hr, he⟩ := h
  set d := b.1.natDegree with hdd
  have hle : d * (b.2 - 1) ≤ d * b.2 := Nat.mul_le_mul_left _ (by omega)
  have hle2 : d ≤ d * b.2 := Nat.le_mul_of_pos_right _ hb
  have hle3 : b.2 ≤ d * b.2 := Nat.le_mul_of_pos_left _ hd
  have e1 := int_power_ok hp1 (by omega)
  have e2 := int_power_ok hp2 (by omega)
  have hA : 0 < q ^ (d * (b.2 - 1)) := Nat.pow_pos (by omega)
  have hB : q ^ 1 ≤ q ^ d := Nat.pow_le_pow_right (by omega) hd
  have hB2 := hp2.le (by omega)
  rw [pow_one] at hB
  generalize q ^ (d * (b.2 - 1)) = A at *
  generalize q ^ d = B at *
  have hAB : A * (B - 1) ≤ 2147483647 := (Nat.le_mul_of_pos_left _ hrv).trans hlt
  unfold totientStep
  rw [← hr.deg, ← hdd, he]
  rw [show isub ((b.2 : ℕ) : Int) 1 = ok (((b.2 - 1 : ℕ)) : Int) by
    rw [show isub ((b.2 : ℕ) : Int) 1 = chk (((b.2 : ℕ) : Int) - 1) from rfl, chk_ok (by unfold InInt; omega)]
    congr 1; omega, ok_bind]
  rw [show imul (d : Int) ((b.2 - 1 : ℕ) : Int) = ok ((d * (b.2 - 1) : ℕ) : Int) by
    rw [show imul (d : Int) ((b.2 - 1 : ℕ) : Int) = chk ((d : Int) * ((b.2 - 1 : ℕ) : Int)) from rfl, ← Nat.cast_mul, chk_ok (by unfold InInt; omega)], ok_bind,
    e1, ok_bind, e2, ok_bind]
  rw [show isub ((B : ℕ) : Int) 1 = ok ((B - 1 : ℕ) : Int) by
    rw [show isub ((B : ℕ) : Int) 1 = chk ((B : Int) - 1) from rfl, chk_ok (by unfold InInt; omega)]
    congr 1; omega, ok_bind]
  rw [show imul (A : Int) ((B - 1 : ℕ) : Int) = chk ((A : Int) * ((B - 1 : ℕ) : Int)) from rfl, ← Nat.cast_mul, chk_ok (by unfold InInt; omega), ok_bind]
  rw [show imul (rv : Int) ((A * (B - 1) : ℕ) : Int) = chk ((rv : Int) * ((A * (B - 1) : ℕ) : Int)) from rfl, ← Nat.cast_mul, chk_ok (by unfold InInt; omega)]

theorem totientFold_ok (q : ℕ) (hq : 2 ≤ q) : ∀ (fs : List (CPoly α × Int)) (l : List (K[X] × ℕ)) (rv : ℕ), List.Forall₂ (FacInfo.PRel (PRep rep)) fs l →
    (∀ b ∈ l, 0 < b.2 ∧ 0 < b.1.natDegree ∧ PowOk q (b.1.natDegree * (b.2 - 1)) ∧ PowOk q b.1.natDegree ∧ b.1.natDegree * b.2 ≤ 2147483647) → 0 < rv →
    rv * (l.map fun b => q ^ (b.1.natDegree * (b.2 - 1)) * (q ^ b.1.natDegree - 1)).prod ≤ 2147483647 →
    fs.foldlM (fun rv p => totientStep q p rv) (rv : Int) =
      ok ((rv * (l.map fun b => q ^ (b.1.natDegree * (b.2 - 1)) * (q ^ b.1.natDegree - 1)).prod : ℕ) : Int)
  | [], [], rv, _, _, _, _ => by simp
  | p :: fs, b :: l, rv, h, h1, hrv, hlt => by
    cases h with
    | cons ha hb =>
    obtain ⟨g1, g2, g3, g4, g5⟩ := h1 b (by simp)
    rw [List.map_cons, List.prod_cons, ← mul_assoc] at hlt ⊢
    have hpos : ∀ d e, 0 < d → 0 < q ^ (d * (e - 1)) * (q ^ d - 1) := by
      intro d e hd
      have h3 : q ^ 1 ≤ q ^ d := Nat.pow_le_pow_right (by omega) hd
      rw [pow_one] at h3
      exact Nat.mul_pos (Nat.pow_pos (by omega)) (by omega)
    have hP : 0 < (l.map fun b => q ^ (b.1.natDegree * (b.2 - 1)) * (q ^ b.1.natDegree - 1)).prod := by
      rw [Nat.pos_iff_ne_zero, ne_eq, List.prod_eq_zero_iff]
      intro hm
      obtain ⟨r, hr, hr0⟩ := List.mem_map.mp hm
      exact (hpos _ _ (h1 r (by simp [hr])).2.1).ne' hr0
    have h4 : rv * (q ^ (b.1.natDegree * (b.2 - 1)) * (q ^ b.1.natDegree - 1)) ≤ 2147483647 := (Nat.le_mul_of_pos_right _ hP).trans hlt
    rw [List.foldlM_cons, show (bind : Res Int → _ → _) = Res.bind from rfl] at *
    rw [totientStep_ok q hq ha g1 hrv g2 g3 g4 g5 h4]
    exact totientFold_ok q hq fs l _ hb (fun r hr => h1 r (by simp [hr])) (Nat.mul_pos hrv (hpos _ _ g2)) hlt

theorem polyTotient_monic {f : K[X]} (hf : f ≠ 0) : polyTotient (f * C f.leadingCoeff⁻¹) = polyTotient f := by
  have hu : IsUnit (C f.leadingCoeff⁻¹) := isUnit_C.mpr (IsUnit.mk0 _ (inv_ne_zero (leadingCoeff_ne_zero.mpr hf)))
  unfold polyTotient
  refine Nat.card_congr (Equiv.subtypeEquivRight fun g => ?_)
  rw [isCoprime_mul_unit_right_right hu, degree_mul_C (inv_ne_zero (leadingCoeff_ne_zero.mpr hf))]

/-- what keeps the totient from overflowing on the way: every irreducible factor must be small enough for `int_power` -/
def TotOk (f : K[X]) : Prop := ∀ (g : K[X]) (e : ℕ), Irreducible g → g ^ (e + 1) ∣ f → ¬ g ^ (e + 2) ∣ f →
  PowOk (Fintype.card K) (g.natDegree * e) ∧ PowOk (Fintype.card K) g.natDegree

theorem totient_sat (H : FRef X rep kv κ p) {a : CPoly α} {f : K[X]} (ha : PRep rep a f) (hpos : 0 < f.natDegree) (hmax : (f.natDegree : Int) ≤ INT_MAX)
    (ht : TotOk f) (hlt : polyTotient f ≤ 2147483647) : (totient X a).Sat False (fun r => r = (polyTotient f : Int)) := by
  have hf0 : f ≠ 0 := by rintro rfl; simp at hpos
  unfold totient
  rw [H.q ha, ok_bind]
  refine (factor_sat H ha hpos hmax).bind fun fi hfi => ?_
  obtain ⟨N, u, h1, h2, -⟩ := hfi
  obtain ⟨l, g1, -, g3, g4, g5⟩ := list_of_facs h1 h2
  have hcop : l.Pairwise fun p q => IsCoprime p.1 q.1 := by
    refine (List.Pairwise.imp_of_mem ?_ g3)
    intro a b ha hb hab
    rw [Irreducible.coprime_iff_not_dvd (g4 a ha).1]
    intro hdvd
    have := eq_of_monic_of_associated (g4 a ha).2.1 (g4 b hb).2.1 ((g4 a ha).1.associated_of_dvd (g4 b hb).1 hdvd)
    rw [this] at hab; exact absurd hab (lt_irrefl _)
  have h := polyTotient_list (fun q hq => (g4 q hq).1) (fun q hq => (g4 q hq).2.2) hcop
  rw [g5, polyTotient_monic hf0] at h
  have hu : IsUnit (C f.leadingCoeff⁻¹) := isUnit_C.mpr (IsUnit.mk0 _ (inv_ne_zero (leadingCoeff_ne_zero.mpr hf0)))
  have hcond : ∀ b ∈ l, 0 < b.2 ∧ 0 < b.1.natDegree ∧ PowOk (Fintype.card K) (b.1.natDegree * (b.2 - 1)) ∧ PowOk (Fintype.card K) b.1.natDegree ∧
      b.1.natDegree * b.2 ≤ 2147483647 := by
    intro b hb
    obtain ⟨k1, k2, k3⟩ := g4 b hb
    obtain ⟨s, t, rfl⟩ := List.append_of_mem hb
    have hprod : f * C f.leadingCoeff⁻¹ = b.1 ^ b.2 * ((s.map fun q => q.1 ^ q.2).prod * (t.map fun q => q.1 ^ q.2).prod) := by
      rw [← g5, List.map_append, List.prod_append, List.map_cons, List.prod_cons]; ring
    have hdvd : b.1 ^ b.2 ∣ f := by
      rw [← hu.dvd_mul_right]; exact ⟨_, hprod⟩
    have hndvd : ¬ b.1 ^ (b.2 + 1) ∣ f := by
      rw [← hu.dvd_mul_right, hprod, pow_succ]
      intro hc
      have hc := (mul_dvd_mul_iff_left (pow_ne_zero b.2 k1.ne_zero)).mp hc
      have hpr : Prime b.1 := k1.prime
      rw [List.pairwise_append] at hcop
      obtain ⟨-, c2, c3⟩ := hcop
      rw [List.pairwise_cons] at c2
      rcases hpr.dvd_or_dvd hc with hc | hc
      · obtain ⟨y, hy, hyd⟩ := (Prime.dvd_prod_iff hpr).mp hc
        obtain ⟨r, hr, rfl⟩ := List.mem_map.mp hy
        have hd' := hpr.dvd_of_dvd_pow hyd
        exact k1.not_isUnit ((c3 r hr b (by simp)).isUnit_of_dvd' hd' dvd_rfl)
      · obtain ⟨y, hy, hyd⟩ := (Prime.dvd_prod_iff hpr).mp hc
        obtain ⟨r, hr, rfl⟩ := List.mem_map.mp hy
        have hd' := hpr.dvd_of_dvd_pow hyd
        exact k1.not_isUnit ((c2.1 r hr).isUnit_of_dvd' dvd_rfl hd')
    have hT := ht b.1 (b.2 - 1) k1 (by rw [Nat.sub_add_cancel k3]; exact hdvd) (by rw [show b.2 - 1 + 2 = b.2 + 1 by omega]; exact hndvd)
    refine ⟨k3, k1.natDegree_pos, hT.1, hT.2, ?_⟩
    have := natDegree_le_of_dvd hdvd hf0
    rw [natDegree_pow, mul_comm] at this
    have e : INT_MAX = 2147483647 := rfl
    omega
  have := totientFold_ok (Fintype.card K) Fintype.one_lt_card fi.facs l 1 g1 hcond one_pos (by rw [one_mul, ← h]; exact hlt)
  rw [one_mul, ← h] at this
  rw [Nat.cast_one] at this
  rw [this, Sat_ok]

/-- `int_power` squares its base once more than needed, so the totient of an irreducible polynomial overflows
although its value may be representable. -/
theorem totient_ub (H : FRef X rep kv κ p) {a : CPoly α} {f : K[X]} (ha : PRep rep a f) (hirr : Irreducible f) (hmax : (f.natDegree : Int) ≤ INT_MAX)
    (ht : ¬ PowOk (Fintype.card K) f.natDegree) : totient X a = ub := by
  have hpos := hirr.natDegree_pos
  have hf0 := hirr.ne_zero
  unfold totient
  rw [H.q ha, ok_bind]
  obtain ⟨fi, hfi, N, u, h1, h2, -⟩ := sat_false.mp (factor_sat H ha hpos hmax)
  rw [hfi, ok_bind]
  obtain ⟨l, g1, -, -, g4, g5⟩ := list_of_facs h1 h2
  have hirr' := (irreducible_monic hf0).mpr hirr
  obtain ⟨q, l', rfl⟩ : ∃ q l', l = q :: l' := by
    cases l with
    | nil =>
      rw [List.map_nil, List.prod_nil] at g5
      exact (hirr'.not_isUnit (g5 ▸ isUnit_one)).elim
    | cons q l' => exact ⟨q, l', rfl⟩
  obtain ⟨k1, -, k3⟩ := g4 q (by simp)
  rw [List.map_cons, List.prod_cons] at g5
  obtain ⟨e, he⟩ : ∃ e, q.2 = e + 1 := ⟨q.2 - 1, by omega⟩
  rw [he, pow_succ', mul_assoc] at g5
  have hu : IsUnit (q.1 ^ e * (l'.map fun q => q.1 ^ q.2).prod) :=
    (hirr'.isUnit_or_isUnit g5.symm).resolve_left k1.not_isUnit
  have he0 : e = 0 := by
    by_contra hne
    exact k1.not_isUnit ((isUnit_pow_iff hne).mp (isUnit_of_mul_isUnit_left hu))
  have hdeg : q.1.natDegree = f.natDegree := by
    have := congrArg natDegree g5
    rw [natDegree_mul k1.ne_zero hu.ne_zero, natDegree_eq_zero_of_isUnit hu, natDegree_mul_C (inv_ne_zero (leadingCoeff_ne_zero.mpr hf0))] at this
    simpa using this
  cases hfs : fi.facs with
  | nil => rw [hfs] at g1; cases g1
  | cons b fs =>
  rw [hfs] at g1
  cases g1 with
  | cons h1 h2 =>
  have e : INT_MAX = 2147483647 := rfl
  have hstep : totientStep (Fintype.card K : Int) b 1 = ub := by
    unfold totientStep
    rw [← h1.1.deg, h1.2, he, he0, hdeg]
    rw [show isub ((0 + 1 : ℕ) : Int) 1 = ok 0 from rfl, ok_bind]
    rw [show imul (f.natDegree : Int) 0 = ok 0 by
      rw [show imul (f.natDegree : Int) 0 = chk ((f.natDegree : Int) * 0) from rfl, mul_zero]; rfl, ok_bind]
    rw [show int_power (Fintype.card K : Int) 0 = ok 1 from int_power_ok (e := 0) (Or.inl rfl) (by norm_num), ok_bind, int_power_ub ht (by omega)]
    rfl
  rw [List.foldlM_cons, hstep]; rfl

/-- A simple sufficient condition: the square of the number of residues modulo `f` fits an `int`. -/
theorem totOk_of_sq {f : K[X]} (hf : f ≠ 0) (h : Fintype.card K ^ (2 * f.natDegree) ≤ 2147483647) : TotOk f := by
  intro g e hg hd _
  have hle := natDegree_le_of_dvd hd hf
  rw [natDegree_pow] at hle
  have hkey : ∀ n, n ≤ f.natDegree → PowOk (Fintype.card K) n := by
    intro n hn
    rcases Nat.eq_zero_or_pos n with h0 | h0
    · exact Or.inl h0
    · right
      refine (Nat.pow_le_pow_right Fintype.card_pos ?_).trans h
      have := Nat.pow_log_le_self 2 h0.ne'
      rw [pow_succ]; omega
  constructor
  · refine hkey _ (le_trans ?_ hle)
    rw [mul_comm]; exact Nat.mul_le_mul_right _ (by omega)
  · refine hkey _ (le_trans ?_ hle)
    exact Nat.le_mul_of_pos_left _ (by omega)

theorem totient_le {f : K[X]} (hf : f ≠ 0) (h : Fintype.card K ^ (2 * f.natDegree) ≤ 2147483647) : polyTotient f ≤ 2147483647 := by
  refine le_trans ?_ h
  have h1 : polyTotient f ≤ Fintype.card K ^ f.natDegree := by
    rw [← card_degree_lt (K := K) f.natDegree]
    exact Nat.card_le_card_of_injective (β := {g : K[X] // g.degree < (f.natDegree : WithBot ℕ)})
      (fun g => ⟨g.1, by rw [← degree_eq_natDegree hf]; exact g.2.1⟩) fun a b h => Subtype.ext (by simpa using h)
  exact h1.trans (Nat.pow_le_pow_right Fintype.card_pos (by omega))

end CFac
end Spffl
