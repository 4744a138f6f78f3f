/-
Frobenius lengths, minimal and characteristic polynomials of field elements.
-/
import Verif.Model.MinPoly
import Verif.Base.Frobenius
import Verif.Base.MinPolyKer
import Verif.Proof.Kernel
import Verif.Proof.LinAlg
import Verif.Proof.CMod
import Verif.Proof.CoefInst
import Verif.Proof.BitMatrix
import Verif.Proof.F2Factor

namespace Spffl
open Res Polynomial CPoly

instance adjoinRoot_finite {K : Type} [Field K] {M : K[X]} [hM : Fact (Irreducible M)] : Module.Finite K (AdjoinRoot M) :=
  (AdjoinRoot.powerBasis hM.out.ne_zero).finite

namespace LinAlg

/-- The loop counts the conjugates. -/
theorem frobLoop_sat {U : Prop} {α K L : Type} [Field K] [Fintype K] [Field L] [Algebra K L] [Finite L] {rep : α → L → Prop} {x : L}
    {step : α → Res α} {ne : α → Res Bool} (hstep : ∀ {b y}, rep b y → (step b).Sat U (fun r => rep r (y ^ Fintype.card K)))
    (hne : ∀ {b y}, rep b y → (ne b).Sat U (fun c => c = true ↔ y ≠ x))
    (hI : ((minpoly K x).natDegree : Int) ≤ INT_MAX) :
    ∀ (k i : ℕ) (ap : α), i < (minpoly K x).natDegree → (minpoly K x).natDegree ≤ i + k → rep ap (x ^ Fintype.card K ^ i) →
      (frobLoop step ne k i ap).Sat U (fun l => l = ((minpoly K x).natDegree : Int)) := by
  intro k
  induction k with
  | zero => intro i ap h1 h2; omega
  | succ k ih =>
    intro i ap h1 h2 ha
    unfold frobLoop iadd
    rw [chk_ok (by unfold INT_MAX at hI; unfold InInt; omega), ok_bind]
    refine (hstep ha).bind fun b hb => ?_
    rw [← pow_mul, ← pow_succ] at hb
    refine (hne hb).bind fun c hc => ?_
    rw [Ne, frob_fix_iff] at hc
    by_cases hct : c = true
    · rw [if_pos hct]
      have hnd := hc.mp hct
      have hlt : i + 1 < (minpoly K x).natDegree := by
        rcases Nat.lt_or_ge (i + 1) (minpoly K x).natDegree with h | h
        · exact h
        · exact absurd (show i + 1 = (minpoly K x).natDegree by omega ▸ dvd_refl _) hnd
      have := ih (i + 1) b hlt (by omega) hb
      simpa using this
    · rw [if_neg hct, Sat_ok]
      have hd : (minpoly K x).natDegree ∣ i + 1 := by
        by_contra h; exact hct (hc.mpr h)
      have := Nat.le_of_dvd (by omega) hd
      omega

section generic
variable {U : Prop} {α K : Type} [Field K] {O : CoefOps α} {rep : α → K → Prop} {ord : K → K → Prop} {M : K[X]}

theorem frobenius_length_sat [Fintype K] [hM : Fact (Irreducible M)] (H : CoefRef U O rep ord) {a : CMod α} {x : AdjoinRoot M}
    (ha : CMod.Rep rep M a x) (hq : (Fintype.card K : Int) ≤ INT_MAX) (hI : ((minpoly K x).natDegree : Int) ≤ INT_MAX) {k : ℕ}
    (hk : (minpoly K x).natDegree ≤ k) :
    (frobenius_length O (Fintype.card K) k a).Sat U (fun l => l = ((minpoly K x).natDegree : Int)) := by
  haveI : Finite (AdjoinRoot M) := Module.finite_of_finite K
  have hpos := minpoly.natDegree_pos (A := K) (Algebra.IsIntegral.isIntegral (R := K) x)
  unfold frobenius_length
  refine frobLoop_sat (K := K) (rep := CMod.Rep rep M) (x := x) (fun {b y} hb => ?_) (fun {b y} hb => ?_) hI k 0 a hpos (by omega) (by simpa using ha)
  · exact CMod.exp_nonneg_sat H hb hq (Or.inl Fintype.card_ne_zero)
  · refine (CMod.eq_sat H hb ha).bind fun e he => ?_
    rw [Sat_ok, ← not_iff_not]
    simpa using he

theorem powerCols_sat (H : CoefRef U O rep ord) {a ap : CMod α} {x : AdjoinRoot M} (ha : CMod.Rep rep M a x) (hap : CMod.Rep rep M ap 1)
    {n l : ℕ} {A : TMat α} (hA : Shape A n (l + 1)) {r : ℕ → K[X]} (hdeg : ∀ j, (r j).degree < M.degree)
    (hmk : ∀ j, AdjoinRoot.mk M (r j) = x ^ j) : (powerCols O a n l A ap).Sat U (fun s => MRep rep s.1 (powMat r n l)) := by
  unfold powerCols
  refine (forUp_sat (fun j (s : TMat α × CMod α) => Shape s.1 n (l + 1) ∧ CMod.Rep rep M s.2 (x ^ j) ∧
      ∀ i j', i < n → j' < j → At2 s.1 i j' (fun e => rep e ((r j').coeff i))) (Nat.zero_le _)
    ⟨hA, by simpa using hap, fun i j' _ h => by omega⟩ ?_).mono fun s ⟨h1, _, h3⟩ => MRep.of h1 fun i j hi hj => h3 i j hi hj
  intro j s _ hj ⟨h1, h2, h3⟩
  obtain ⟨f, hf, hfd, hfm⟩ := h2.hr
  have hfr : f = r j := CMod.mk_inj hfd (hdeg j) (hfm.trans (hmk j).symm)
  refine (forUp_sat (fun i (A : TMat α) => Shape A n (l + 1) ∧ (∀ i', i' < i → At2 A i' j (fun e => rep e ((r j).coeff i'))) ∧
      ∀ i' j', j' ≠ j → ent A i' j' = ent s.1 i' j') (Nat.zero_le _) ⟨h1, fun _ h => by omega, fun _ _ _ => rfl⟩ ?_).bind fun B hB => ?_
  · intro i B _ hi ⟨g1, g2, g3⟩
    refine (cput_sat g1 hi hj (get_coeff_sat H hf i)).mono fun C ⟨k1, k2, k3⟩ => ⟨k1, fun i' hi' => ?_, fun i' j' hne => ?_⟩
    · by_cases e : i' = i
      · subst e; rw [← hfr]; exact k2
      · exact (g2 i' (by omega)).congr (k3 _ _ (Or.inl e))
    · rw [k3 _ _ (Or.inr hne), g3 _ _ hne]
  · obtain ⟨g1, g2, g3⟩ := hB
    refine (CMod.mul_sat H h2 ha).bind fun b hb => ?_
    rw [Sat_ok]
    refine ⟨g1, by rw [pow_succ]; exact hb, fun i j' hi hj' => ?_⟩
    by_cases e : j' = j
    · subst e; exact g2 i hi
    · exact (h3 i j' hi (by omega)).congr (g3 _ _ e)

theorem fromRow_sat (H : CoefRef U O rep ord) {d : α} (hd : ∃ z, O.psub d 0 = ok z ∧ ∀ {c y}, rep c y → (O.eq c z).Sat U fun _ => True)
    {B : TMat α} {l : ℕ} {N : Matrix (Fin 1) (Fin (l + 1)) K} (hB : MRep rep B N) {g : K[X]} (hg : g.natDegree ≤ l)
    (hN : ∀ j : Fin (l + 1), N 0 j = g.coeff j) : (fromRow O d B l).Sat U (fun p => PRep rep p g) := by
  obtain ⟨z, hz1, hz2⟩ := hd
  have hget : ∀ j, j < l + 1 → (B.cget 0 j).Sat U (fun c => rep c (g.coeff j)) := fun j hj =>
    (cget_sat hB.shape Nat.one_pos (hB.at Nat.one_pos hj)).mono fun c hc => by rw [← hN ⟨j, hj⟩]; exact hc
  unfold fromRow
  refine (forUp_sat (fun j (p : CPoly α) => (j = 0 → p = ⟨0, [d]⟩) ∧ (0 < j → ∃ f, PRep rep p f ∧ ∀ i, f.coeff i = if i < j then g.coeff i else 0))
    (Nat.zero_le _) ⟨fun _ => rfl, fun h => by omega⟩ ?_).mono fun p ⟨_, h⟩ => ?_
  · intro j p _ hj ⟨h0, h1⟩
    refine (hget j hj).bind fun c hc => ?_
    rcases Nat.eq_zero_or_pos j with rfl | hpos
    · rw [h0 rfl]
      have hgoal : ∀ q : CPoly α, PRep rep q (C (g.coeff 0)) → ((0 + 1 = 0 → q = ⟨0, [d]⟩) ∧
          (0 < 0 + 1 → ∃ f, PRep rep q f ∧ ∀ i, f.coeff i = if i < 0 + 1 then g.coeff i else 0)) := fun q hq => by
        refine ⟨fun h => by omega, fun _ => ⟨_, hq, fun i => ?_⟩⟩
        rw [coeff_C]
        by_cases e : i = 0
        · subst e; simp
        · rw [if_neg e, if_neg (by omega)]
      have hold : Holds rep [c] (0 + 1) (C (g.coeff 0)) := fun i hi => by
        have : i = 0 := by omega
        subst this
        exact ⟨c, rfl, by simpa using hc⟩
      unfold set_coeff set_coeff_in
      have hr : rd [d] 0 = ok d := rfl
      have hw : wr [d] 0 c = ok [c] := rfl
      simp only [Nat.cast_zero, Int.toNat_zero]
      rw [if_neg (by omega), hr, ok_bind, hz1, ok_bind, if_neg (by omega), hw, ok_bind, if_pos trivial]
      refine (hz2 hc).bind fun e _ => ?_
      split
      · exact (recompute_sat H hold (by simp)).mono hgoal
      · rw [Sat_ok]; exact hgoal _ ⟨by simp, hold⟩
    · obtain ⟨f, hf, hfc⟩ := h1 hpos
      refine (set_coeff_sat H hf j hc).mono fun q hq => ⟨fun h => by omega, fun _ => ⟨_, hq, fun i => ?_⟩⟩
      rw [coeff_update_apply, hfc]
      by_cases e : i = j
      · subst e; simp
      · rw [if_neg e]
        by_cases e2 : i < j
        · rw [if_pos e2, if_pos (by omega)]
        · rw [if_neg e2, if_neg (by omega)]
  · obtain ⟨f, hf, hfc⟩ := h (by omega)
    have : f = g := by
      ext i
      rw [hfc]
      split
      · rfl
      · rw [coeff_eq_zero_of_natDegree_lt (by omega)]
    rwa [this] at hf

/-- a matrix of one non-zero row has rank 1 -/
theorem one_row_rank (H : EltRef U O.tops rep) {n : ℕ} (hn : 0 < n) {B : TMat α} {N : Matrix (Fin 1) (Fin n) K} (hB : MRep rep B N) (hN : N 0 ≠ 0) :
    (TMat.get_rank_rr O.tops B).Sat U (fun r => r = 1) := by
  unfold TMat.get_rank_rr
  refine (get_sat (hB.at Nat.one_pos hn)).bind fun a ha => ?_
  refine (H.sub ha ha).bind fun z hz => ?_
  rw [sub_self] at hz
  rw [hB.shape.nr, hB.shape.nc]
  refine (forUp_sat (fun i r => r = i) (Nat.zero_le _) rfl ?_).mono fun r hr => hr
  intro i r _ hi hr
  refine (rowIsZero_sat H hB hz hi n 0 rfl).bind fun b hb => ?_
  have : i = 0 := by omega
  subst this
  rw [Sat_ok, hr, if_neg]
  intro h
  exact hN (funext fun l => hb.mp h l (Nat.zero_le _))

/-- the minimal polynomial over the coefficient field -/
theorem minimal_polynomial_sat [Fintype K] [hM : Fact (Irreducible M)] (H : CoefRef U O rep ord) {d zero one : α} (hz : rep zero 0) (ho : rep one 1)
    (hd : ∃ z, O.psub d 0 = ok z ∧ ∀ {c y}, rep c y → (O.eq c z).Sat U fun _ => True) {a : CMod α} {x : AdjoinRoot M}
    (ha : CMod.Rep rep M a x) (hq : (Fintype.card K : Int) ≤ INT_MAX) (hI : ((minpoly K x).natDegree : Int) < INT_MAX) {k : ℕ}
    (hk : (minpoly K x).natDegree ≤ k) :
    (minimal_polynomial O d (Fintype.card K) zero one k a).Sat U (fun p => PRep rep p (minpoly K x)) := by
  have hM0 := hM.out.ne_zero
  have hpos : 0 < M.natDegree := hM.out.natDegree_pos
  have hmon := minpoly.monic (A := K) (Algebra.IsIntegral.isIntegral (R := K) x)
  unfold minimal_polynomial
  refine (CMod.psub_sat H ha (v := 1) (by decide)).bind fun ap hap => ?_
  rw [Int.cast_one] at hap
  refine (frobenius_length_sat H ha hq hI.le hk).bind fun l hl => ?_
  subst hl
  set l := (minpoly K x).natDegree with hl
  unfold iadd
  rw [chk_ok (by unfold INT_MAX at hI; unfold InInt; omega), ok_bind]
  have hn : a.modulus.degree = M.natDegree := ha.hm.deg.symm
  rw [hn]
  choose r hdeg hmk using fun j => CMod.exists_lowdeg hM0 (x ^ j)
  have hfill : (TMat.fill zero (M.natDegree : Int) ((l : Int) + 1)).Sat U (fun A => Shape A M.natDegree (l + 1)) := by
    unfold TMat.fill
    rw [if_neg (by omega), Sat_ok]
    refine ⟨rfl, by simp, fun i hi => ⟨List.replicate (l + 1) zero, ?_, by simp⟩⟩
    rw [List.getElem?_replicate, if_pos (by simpa using hi)]
    congr 2
  refine hfill.bind fun A hA => ?_
  rw [Int.toNat_natCast]
  refine (powerCols_sat H ha hap hA hdeg hmk).bind fun s hs => ?_
  refine (kernel_last_sat H.elt H.negRef hpos (Nat.succ_pos l) hs hz ho).bind fun B hB => ?_
  cases B with
  | none => exact absurd hB (powMat_ker_ne hM0 rfl hpos hl hdeg hmk)
  | some B =>
    obtain ⟨e, -, -, N, hN, hind, hspan, hlast⟩ := hB
    obtain ⟨rfl, hrow⟩ := minpoly_row hM0 rfl hpos hl hdeg hmk hind hspan
    dsimp only
    refine (one_row_rank H.elt (Nat.succ_pos l) hN (hind.ne_zero 0)).bind fun rk hrk => ?_
    rw [if_neg (by simpa using hrk)]
    obtain ⟨t, ht0, ht⟩ := hrow 0
    obtain ⟨c, hc1, hc2⟩ := hlast 0
    have hlt : N 0 ⟨l, Nat.lt_succ_self l⟩ = t := by
      rw [ht]
      have : (minpoly K x).coeff l = 1 := hmon
      simp only [this, mul_one]
    have hc : c = ⟨l, Nat.lt_succ_self l⟩ := by
      by_contra h
      have : c < ⟨l, Nat.lt_succ_self l⟩ := by
        rw [Fin.lt_def]
        have := c.2
        have h' : (c : ℕ) ≠ l := fun e => h (Fin.ext e)
        simp only; omega
      exact ht0 (by rw [← hlt]; exact hc2 _ this)
    have ht1 : t = 1 := by rw [← hlt, ← hc, hc1]
    exact fromRow_sat H hd hN le_rfl fun j => by rw [ht, ht1, one_mul]

/-- the characteristic polynomial of multiplication -/
theorem characteristic_polynomial_sat [Fintype K] [hM : Fact (Irreducible M)] (H : CoefRef U O rep ord) {d zero one : α} (hz : rep zero 0) (ho : rep one 1)
    (hd : ∃ z, O.psub d 0 = ok z ∧ ∀ {c y}, rep c y → (O.eq c z).Sat U fun _ => True) {a : CMod α} {x : AdjoinRoot M}
    (ha : CMod.Rep rep M a x) (hq : (Fintype.card K : Int) ≤ INT_MAX) (hI : (M.natDegree : Int) < INT_MAX) {k : ℕ}
    (hk : M.natDegree ≤ k) :
    (characteristic_polynomial O d (Fintype.card K) zero one k a).Sat U (fun p => PRep rep p (Algebra.lmul K (AdjoinRoot M) x).charpoly) := by
  haveI : Finite (AdjoinRoot M) := Module.finite_of_finite K
  have hfr : Module.finrank K (AdjoinRoot M) = M.natDegree := by
    rw [(AdjoinRoot.powerBasis hM.out.ne_zero).finrank, AdjoinRoot.powerBasis_dim]
  have hle : (minpoly K x).natDegree ≤ M.natDegree := hfr ▸ Nat.le_of_dvd Module.finrank_pos (minpoly_natDegree_dvd (K := K) x)
  have hlp := minpoly.natDegree_pos (A := K) (Algebra.IsIntegral.isIntegral (R := K) x)
  unfold characteristic_polynomial
  refine (minimal_polynomial_sat H hz ho hd ha hq (by omega) (hle.trans hk)).bind fun p hp => ?_
  refine (frobenius_length_sat H ha hq (by omega) (hle.trans hk)).bind fun l hl => ?_
  subst hl
  rw [← ha.hm.deg]
  have hb : M.natDegree / (minpoly K x).natDegree ≤ M.natDegree := Nat.div_le_self _ _
  have e : (M.natDegree : Int).tdiv ((minpoly K x).natDegree : Int) = ((M.natDegree / (minpoly K x).natDegree : ℕ) : Int) := by
    rw [Int.tdiv_eq_ediv_of_nonneg (by omega)]; rfl
  unfold idiv
  rw [if_neg (by omega), e, charpoly_mul, hfr]
  generalize M.natDegree / (minpoly K x).natDegree = q at hb
  unfold INT_MAX at hI
  rw [chk_ok (by unfold InInt; omega), ok_bind]
  refine (CPoly.exp_pos_sat H hp (by rw [← hp.deg]; exact hlp) (by omega) (by omega)).mono fun r hr => ?_
  rwa [Int.toNat_natCast] at hr

end generic

section f2
open F2P
variable {m : (ZMod 2)[X]} {U : Prop}

theorem zmod2_ne {t : ZMod 2} (h : t ≠ 0) : t = 1 := by revert h; revert t; decide

theorem eq_sat_f2 {a b : F2Mod} {x y : AdjoinRoot m} (ha : F2Mod.Rep m a x) (hb : F2Mod.Rep m b y) : (F2Mod.eq a b).Sat U (fun r => r = true ↔ x = y) := by
  classical
  rw [F2Mod.eq_ok ha hb, Sat_ok]; simp

theorem f2_frobenius_length_sat [hm : Fact (Irreducible m)] {a : F2Mod} {x : AdjoinRoot m} (ha : F2Mod.Rep m a x)
    (hI : ((minpoly (ZMod 2) x).natDegree : Int) ≤ INT_MAX) {k : ℕ} (hk : (minpoly (ZMod 2) x).natDegree ≤ k) :
    (f2_frobenius_length k a).Sat U (fun l => l = ((minpoly (ZMod 2) x).natDegree : Int)) := by
  haveI : Finite (AdjoinRoot m) := Module.finite_of_finite (ZMod 2)
  have hpos := minpoly.natDegree_pos (A := ZMod 2) (Algebra.IsIntegral.isIntegral (R := ZMod 2) x)
  unfold f2_frobenius_length
  refine frobLoop_sat (K := ZMod 2) (rep := F2Mod.Rep m) (x := x) (fun {b y} hb => ?_) (fun {b y} hb => ?_) hI k 0 a hpos (by omega) (by simpa using ha)
  · rw [ZMod.card, pow_two]; exact (F2Mod.mul_ok hb hb).sat
  · refine (eq_sat_f2 hb ha).bind fun e he => ?_
    rw [Sat_ok, ← not_iff_not]
    simpa using he

theorem f2Powers_sat {a ap : F2Mod} {x : AdjoinRoot m} (ha : F2Mod.Rep m a x) (hap : F2Mod.Rep m ap 1) {n l : ℕ} {A : BM}
    {N : Matrix (Fin n) (Fin (l + 1)) (ZMod 2)} (hA : BM.Rep A N) {r : ℕ → (ZMod 2)[X]} (hdeg : ∀ j, (r j).degree < m.degree)
    (hmk : ∀ j, AdjoinRoot.mk m (r j) = x ^ j) : (f2Powers a n l A ap).Sat U (fun s => BM.Rep s.1 (powMat r n l)) := by
  unfold f2Powers
  refine (forUp_sat (fun j (s : BM × F2Mod) => F2Mod.Rep m s.2 (x ^ j) ∧ ∃ N : Matrix (Fin n) (Fin (l + 1)) (ZMod 2), BM.Rep s.1 N ∧
      ∀ (i : Fin n) (j' : Fin (l + 1)), (j' : ℕ) < j → N i j' = (r j').coeff i) (Nat.zero_le _)
    ⟨by simpa using hap, N, hA, fun i j' h => by omega⟩ ?_).mono fun s ⟨_, N, h1, h2⟩ => ?_
  · intro j s _ hj ⟨h1, N, h2, h3⟩
    have hfr : toPoly s.2.residue = r j := CMod.mk_inj h1.deg (hdeg j) (h1.val.trans (hmk j).symm)
    refine (forUp_sat (fun i (A : BM) => ∃ N' : Matrix (Fin n) (Fin (l + 1)) (ZMod 2), BM.Rep A N' ∧ (∀ i' : Fin n, (i' : ℕ) < i → N' i' ⟨j, hj⟩ = (r j).coeff i') ∧
        ∀ (i' : Fin n) (j' : Fin (l + 1)), (j' : ℕ) ≠ j → N' i' j' = N i' j') (Nat.zero_le _) ⟨N, h2, fun _ h => by omega, fun _ _ _ => rfl⟩ ?_).bind fun B hB => ?_
    · intro i B _ hi ⟨N', g1, g2, g3⟩
      rw [bit_at_ok, ok_bind]
      obtain ⟨C, c1, c2⟩ := BM.cput_rep g1 hi hj (bitAt s.2.residue i)
      rw [c1, Sat_ok]
      refine ⟨_, c2, fun i' hi' => ?_, fun i' j' hne => ?_⟩
      · rw [BM.updEntry_apply]
        by_cases e : (i' : ℕ) = i
        · rw [if_pos ⟨Fin.ext e, rfl⟩, b2_eq_coeff, hfr, e]
        · rw [if_neg fun h => e (congrArg Fin.val h.1)]
          exact g2 i' (by omega)
      · rw [BM.updEntry_apply, if_neg fun h => hne (congrArg Fin.val h.2)]
        exact g3 i' j' hne
    · obtain ⟨N', g1, g2, g3⟩ := hB
      refine (F2Mod.mul_ok h1 ha).sat.bind fun b hb => ?_
      rw [Sat_ok]
      refine ⟨by rw [pow_succ]; exact hb, N', g1, fun i j' hj' => ?_⟩
      by_cases e : (j' : ℕ) = j
      · have : j' = ⟨j, hj⟩ := Fin.ext e
        rw [this]; exact g2 i i.2
      · rw [g3 i j' e]; exact h3 i j' (by omega)
  · have : N = powMat r n l := by ext i j; exact h2 i j j.2
    rwa [this] at h1

theorem f2FromRow_sat {B : BM} {l : ℕ} {N : Matrix (Fin 1) (Fin (l + 1)) (ZMod 2)} (hB : BM.Rep B N) {g : (ZMod 2)[X]} (hg : g.natDegree ≤ l)
    (hN : ∀ j : Fin (l + 1), N 0 j = g.coeff j) : (f2FromRow B l).Sat U (fun p => Canon p ∧ toPoly p = g) := by
  unfold f2FromRow
  refine (forUp_sat (fun j (p : F2P) => Canon p ∧ ∀ i, (toPoly p).coeff i = if i < j then g.coeff i else 0) (Nat.zero_le _)
    ⟨canon_zero, fun i => by rw [toPoly_zero]; simp⟩ ?_).mono fun p ⟨h1, h2⟩ => ⟨h1, ?_⟩
  · intro j p _ hj ⟨h1, h2⟩
    obtain ⟨v, hv1, hv2⟩ := hB.at Nat.one_pos
    obtain ⟨b, hb1, hb2⟩ := BV.get_rep hv2 hj
    have hr : BM.row B 0 = ok v := by unfold BM.row; rw [if_pos (by rw [hB.nr]; exact Nat.one_pos), hv1]
    rw [hr, ok_bind, hb1, ok_bind]
    have hbg : b2 b = g.coeff j := by rw [hb2]; exact hN ⟨j, hj⟩
    have hpj : bitAt p j = false := by
      have := h2 j
      rw [if_neg (lt_irrefl _), ← b2_eq_coeff] at this
      exact b2_eq_zero.mp this
    cases b with
    | true =>
      rw [if_pos rfl]
      refine (set_bit_new h1.ne_nil hpj).sat.mono fun q ⟨q1, q2⟩ => ⟨q2 h1, fun i => ?_⟩
      rw [q1, coeff_add, h2, coeff_X_pow]
      by_cases e : i = j
      · subst e; simpa using hbg
      · rw [if_neg e, add_zero]
        by_cases e2 : i < j
        · rw [if_pos e2, if_pos (by omega)]
        · rw [if_neg e2, if_neg (by omega)]
    | false =>
      rw [if_neg (by simp), Sat_ok]
      refine ⟨h1, fun i => ?_⟩
      rw [h2]
      by_cases e : i = j
      · subst e; simpa using hbg
      · by_cases e2 : i < j
        · rw [if_pos e2, if_pos (by omega)]
        · rw [if_neg e2, if_neg (by omega)]
  · ext i
    rw [h2]
    split
    · rfl
    · rw [coeff_eq_zero_of_natDegree_lt (by omega)]

/-- over F2 a single non-zero row is an echelon form -/
theorem one_row_echelon {n : ℕ} {N : Matrix (Fin 1) (Fin n) (ZMod 2)} (hN : N 0 ≠ 0) : ∃ p : Fin 1 → Fin n, IsEchelon N 1 p := by
  classical
  have hex : ∃ j : ℕ, ∃ h : j < n, N 0 ⟨j, h⟩ ≠ 0 := by
    by_contra h
    push Not at h
    exact hN (funext fun j => h j j.2)
  obtain ⟨h1, h2⟩ := Nat.find_spec hex
  refine ⟨fun _ => ⟨Nat.find hex, h1⟩, le_rfl, fun i j hij => absurd hij (by rw [Subsingleton.elim i j]; exact lt_irrefl _),
    fun i hi => by omega, fun i => ?_, fun i j hj => ?_⟩
  · have : (⟨i, i.2.trans_le le_rfl⟩ : Fin 1) = 0 := Subsingleton.elim _ _
    rw [this]
    generalize N 0 ⟨Nat.find hex, h1⟩ = z at h2
    revert h2; revert z; decide
  · have : (⟨i, i.2.trans_le le_rfl⟩ : Fin 1) = 0 := Subsingleton.elim _ _
    rw [this]
    by_contra h
    exact Nat.find_min hex hj ⟨j.2, h⟩

theorem f2_minimal_polynomial_sat {tm : TrimMask} (H : ∀ k, (tm k).Sat U fun _ => True) [hm : Fact (Irreducible m)] {a : F2Mod} {x : AdjoinRoot m}
    (ha : F2Mod.Rep m a x) (hI : ((minpoly (ZMod 2) x).natDegree : Int) < INT_MAX) {k : ℕ} (hk : (minpoly (ZMod 2) x).natDegree ≤ k) :
    (f2_minimal_polynomial tm k a).Sat U (fun p => Canon p ∧ toPoly p = minpoly (ZMod 2) x) := by
  have hM0 := hm.out.ne_zero
  have hpos : 0 < m.natDegree := hm.out.natDegree_pos
  have hmon := minpoly.monic (A := ZMod 2) (Algebra.IsIntegral.isIntegral (R := ZMod 2) x)
  unfold f2_minimal_polynomial F2Mod.prime_subfield_element
  refine (F2Mod.mk'_ok (r := F2P.ofInt 1) canon_one.good ha.cm ha.hm hM0).sat.bind fun ap hap => ?_
  have hap := hap.1
  have e1 : toPoly (F2P.ofInt 1) = 1 := toPoly_one
  rw [e1, map_one] at hap
  rw [find_degree_ok, ok_bind, ha.hm]
  refine (f2_frobenius_length_sat ha hI.le hk).bind fun l hl => ?_
  subst hl
  set l := (minpoly (ZMod 2) x).natDegree with hl
  unfold iadd
  rw [chk_ok (by unfold INT_MAX at hI; unfold InInt; omega), ok_bind]
  choose r hdeg hmk using fun j => CMod.exists_lowdeg hM0 (x ^ j)
  obtain ⟨A, hA1, hA2⟩ := BM.alloc_rep (m := m.natDegree) (n := l + 1) hpos (Nat.succ_pos l)
  have hl1 : ((l : Int) + 1) = ((l + 1 : ℕ) : Int) := (Nat.cast_succ l).symm
  rw [hl1, hA1, ok_bind, Int.toNat_natCast]
  refine (f2Powers_sat ha hap hA2 hdeg hmk).bind fun s hs => ?_
  refine (BM.kernel_sat H (Nat.succ_pos l) hs).bind fun B hB => ?_
  cases B with
  | none => exact absurd hB (powMat_ker_ne hM0 rfl hpos hl hdeg hmk)
  | some B =>
    obtain ⟨e, -, -, N, hN, hind, hspan⟩ := hB
    obtain ⟨rfl, hrow⟩ := minpoly_row hM0 rfl hpos hl hdeg hmk hind hspan
    dsimp only
    obtain ⟨p, hp⟩ := one_row_echelon (hind.ne_zero 0)
    rw [BM.rank_rr_rep hN hp, ok_bind, if_neg (by simp)]
    obtain ⟨t, ht0, ht⟩ := hrow 0
    have ht1 : t = 1 := zmod2_ne ht0
    exact f2FromRow_sat hN le_rfl fun j => by rw [ht, ht1, one_mul]

theorem f2_characteristic_polynomial_sat {tm : TrimMask} (H : ∀ k, (tm k).Sat U fun _ => True) [hm : Fact (Irreducible m)] {a : F2Mod} {x : AdjoinRoot m}
    (ha : F2Mod.Rep m a x) (hI : (m.natDegree : Int) < INT_MAX) {k : ℕ} (hk : m.natDegree ≤ k) :
    (f2_characteristic_polynomial tm k a).Sat U (fun p => Canon p ∧ toPoly p = (Algebra.lmul (ZMod 2) (AdjoinRoot m) x).charpoly) := by
  haveI : Finite (AdjoinRoot m) := Module.finite_of_finite (ZMod 2)
  have hfr : Module.finrank (ZMod 2) (AdjoinRoot m) = m.natDegree := by
    rw [(AdjoinRoot.powerBasis hm.out.ne_zero).finrank, AdjoinRoot.powerBasis_dim]
  have hle : (minpoly (ZMod 2) x).natDegree ≤ m.natDegree := hfr ▸ Nat.le_of_dvd Module.finrank_pos (minpoly_natDegree_dvd (K := ZMod 2) x)
  have hlp := minpoly.natDegree_pos (A := ZMod 2) (Algebra.IsIntegral.isIntegral (R := ZMod 2) x)
  have hmon := minpoly.monic (A := ZMod 2) (Algebra.IsIntegral.isIntegral (R := ZMod 2) x)
  unfold f2_characteristic_polynomial
  refine (f2_minimal_polynomial_sat H ha (by omega) (hle.trans hk)).bind fun p hp => ?_
  rw [find_degree_ok, ok_bind, ha.hm]
  refine (f2_frobenius_length_sat ha (by omega) (hle.trans hk)).bind fun l hl => ?_
  subst hl
  have hb : m.natDegree / (minpoly (ZMod 2) x).natDegree ≤ m.natDegree := Nat.div_le_self _ _
  have e : (m.natDegree : Int).tdiv ((minpoly (ZMod 2) x).natDegree : Int) = ((m.natDegree / (minpoly (ZMod 2) x).natDegree : ℕ) : Int) := by
    rw [Int.tdiv_eq_ediv_of_nonneg (by omega)]; rfl
  unfold idiv
  rw [if_neg (by omega), e, charpoly_mul, hfr]
  generalize m.natDegree / (minpoly (ZMod 2) x).natDegree = q at hb
  unfold INT_MAX at hI
  rw [chk_ok (by unfold InInt; omega), ok_bind]
  refine (F2P.exp_ok hp.1 (by rw [hp.2]; exact hmon.ne_zero) q).sat.mono fun r hr => ⟨hr.2, ?_⟩
  rw [hr.1, hp.2]

/-! ### orbit polynomials -/

theorem X_add_C (y : AdjoinRoot m) : C 1 * X + C y = (X - C y : (AdjoinRoot m)[X]) := by
  have h2 : (1 + 1 : AdjoinRoot m) = 0 := by
    have := congrArg (AdjoinRoot.of m) (show (1 + 1 : ZMod 2) = 0 from rfl)
    rw [map_add, map_one, map_zero] at this
    exact this
  have h3 : C y + C y = (0 : (AdjoinRoot m)[X]) := by
    rw [← C_add, show y + y = (1 + 1) * y by ring, h2, zero_mul, C_0]
  rw [C_1]
  linear_combination h3

theorem orbitStep_sat [hm : Fact (Irreducible m)] {one ap : F2Mod} {y : AdjoinRoot m} (ho : F2Mod.Rep m one 1) (hap : F2Mod.Rep m ap y)
    {rv : CPoly F2Mod} {f : (AdjoinRoot m)[X]} (hrv : PRep (F2Mod.Rep m) rv f) {β : Type} {k : CPoly F2Mod → Res β} {P : β → Prop}
    (hk : ∀ r, PRep (F2Mod.Rep m) r (f * (X - C y)) → (k r).Ok P) :
    (CPoly.linear F2Mod.cops one ap >>= fun fa => CPoly.mul F2Mod.cops rv fa >>= k).Ok P := by
  have H := F2Mod.cops_ref (m := m) hm.out.ne_zero
  refine (sat_false.mp (linear_sat H ho hap)).bind fun fa hfa => ?_
  rw [X_add_C] at hfa
  exact (sat_false.mp (CPoly.mul_sat H hrv hfa)).bind fun r hr => hk r hr

theorem orbit_char [hm : Fact (Irreducible m)] {a one : F2Mod} {x : AdjoinRoot m} (ho : F2Mod.Rep m one 1) :
    ∀ (k i : ℕ) (rv : CPoly F2Mod) (ap : F2Mod), F2Mod.Rep m ap (x ^ 2 ^ i) →
      PRep (F2Mod.Rep m) rv (∏ j ∈ Finset.range i, (X - C (x ^ 2 ^ j))) →
      (orbitLoop a one false k rv ap).Ok (fun r => PRep (F2Mod.Rep m) r (∏ j ∈ Finset.range (i + k), (X - C (x ^ 2 ^ j)))) := by
  intro k
  induction k with
  | zero => intro i rv ap _ h; unfold orbitLoop; rw [Ok_ok]; exact h
  | succ k ih =>
    intro i rv ap hap hrv
    unfold orbitLoop
    refine orbitStep_sat ho hap hrv fun r hr => ?_
    refine (F2Mod.mul_ok hap hap).bind fun b hb => ?_
    rw [← pow_two, ← pow_mul, ← pow_succ] at hb
    rw [← Finset.prod_range_succ] at hr
    rw [if_neg (by simp)]
    have := ih (i + 1) r b hb hr
    rwa [show i + 1 + k = i + (k + 1) by omega] at this

theorem orbit_min [hm : Fact (Irreducible m)] {a one : F2Mod} {x : AdjoinRoot m} (ho : F2Mod.Rep m one 1) (ha : F2Mod.Rep m a x) :
    ∀ (k i : ℕ) (rv : CPoly F2Mod) (ap : F2Mod), i < (minpoly (ZMod 2) x).natDegree → (minpoly (ZMod 2) x).natDegree ≤ i + k →
      F2Mod.Rep m ap (x ^ 2 ^ i) → PRep (F2Mod.Rep m) rv (∏ j ∈ Finset.range i, (X - C (x ^ 2 ^ j))) →
      (orbitLoop a one true k rv ap).Ok (fun r => PRep (F2Mod.Rep m) r (∏ j ∈ Finset.range (minpoly (ZMod 2) x).natDegree, (X - C (x ^ 2 ^ j)))) := by
  haveI : Finite (AdjoinRoot m) := Module.finite_of_finite (ZMod 2)
  intro k
  induction k with
  | zero => intro i rv ap h1 h2; omega
  | succ k ih =>
    intro i rv ap h1 h2 hap hrv
    unfold orbitLoop
    refine orbitStep_sat ho hap hrv fun r hr => ?_
    refine (F2Mod.mul_ok hap hap).bind fun b hb => ?_
    rw [← pow_two, ← pow_mul, ← pow_succ] at hb
    rw [← Finset.prod_range_succ] at hr
    rw [if_pos rfl]
    refine (sat_false.mp (eq_sat_f2 hb ha)).bind fun c hc => ?_
    have hfix := frob_fix_iff (K := ZMod 2) x (i + 1)
    rw [ZMod.card] at hfix
    rw [hfix] at hc
    by_cases hct : c = true
    · rw [if_pos hct, Ok_ok]
      have := Nat.le_of_dvd (by omega) (hc.mp hct)
      rwa [show i + 1 = (minpoly (ZMod 2) x).natDegree by omega] at hr
    · rw [if_neg hct]
      have hlt : i + 1 < (minpoly (ZMod 2) x).natDegree := by
        rcases Nat.lt_or_ge (i + 1) (minpoly (ZMod 2) x).natDegree with h | h
        · exact h
        · exact absurd (hc.mpr (by rw [show i + 1 = (minpoly (ZMod 2) x).natDegree by omega])) hct
      exact ih (i + 1) r b hlt (by omega) hb hr

theorem orbit_start [hm : Fact (Irreducible m)] {a : F2Mod} {x : AdjoinRoot m} (ha : F2Mod.Rep m a x) (b : Bool) {P : CPoly F2Mod → Prop}
    (h : ∀ one rv, F2Mod.Rep m one 1 → PRep (F2Mod.Rep m) rv (1 : (AdjoinRoot m)[X]) → (orbitLoop a one b m.natDegree rv a).Ok P) :
    (f2_char_or_min_poly a b).Ok P := by
  unfold f2_char_or_min_poly
  rw [find_degree_ok, ok_bind, ha.hm]
  refine (F2Mod.mk'_ok (r := F2P.ofInt 1) canon_one.good ha.cm ha.hm hm.out.ne_zero).bind fun one ho => ?_
  have ho := ho.1
  have e1 : toPoly (F2P.ofInt 1) = 1 := toPoly_one
  rw [e1, map_one] at ho
  refine (sat_false.mp (const_sat (F2Mod.cops_ref (m := m) hm.out.ne_zero) ho)).bind fun rv hrv => ?_
  rw [C_1] at hrv
  exact h one rv ho hrv

theorem f2_polymod_char_poly_ok [hm : Fact (Irreducible m)] {a : F2Mod} {x : AdjoinRoot m} (ha : F2Mod.Rep m a x) :
    (f2_polymod_char_poly a).Ok (fun r => PRep (F2Mod.Rep m) r ((Algebra.lmul (ZMod 2) (AdjoinRoot m) x).charpoly.map (algebraMap (ZMod 2) (AdjoinRoot m)))) := by
  haveI : Finite (AdjoinRoot m) := Module.finite_of_finite (ZMod 2)
  have hfr : Module.finrank (ZMod 2) (AdjoinRoot m) = m.natDegree := by
    rw [(AdjoinRoot.powerBasis hm.out.ne_zero).finrank, AdjoinRoot.powerBasis_dim]
  refine orbit_start ha false fun one rv ho hrv => ?_
  rw [← frob_prod_char, hfr, ZMod.card]
  have := orbit_char (a := a) (x := x) ho m.natDegree 0 rv a (by simpa using ha) (by simpa using hrv)
  rwa [Nat.zero_add] at this

theorem f2_polymod_min_poly_ok [hm : Fact (Irreducible m)] {a : F2Mod} {x : AdjoinRoot m} (ha : F2Mod.Rep m a x) :
    (f2_polymod_min_poly a).Ok (fun r => PRep (F2Mod.Rep m) r ((minpoly (ZMod 2) x).map (algebraMap (ZMod 2) (AdjoinRoot m)))) := by
  haveI : Finite (AdjoinRoot m) := Module.finite_of_finite (ZMod 2)
  have hfr : Module.finrank (ZMod 2) (AdjoinRoot m) = m.natDegree := by
    rw [(AdjoinRoot.powerBasis hm.out.ne_zero).finrank, AdjoinRoot.powerBasis_dim]
  have hle : (minpoly (ZMod 2) x).natDegree ≤ m.natDegree := hfr ▸ Nat.le_of_dvd Module.finrank_pos (minpoly_natDegree_dvd (K := ZMod 2) x)
  have hpos := minpoly.natDegree_pos (A := ZMod 2) (Algebra.IsIntegral.isIntegral (R := ZMod 2) x)
  refine orbit_start ha true fun one rv ho hrv => ?_
  have h2 := frob_prod_min (K := ZMod 2) x
  rw [ZMod.card] at h2
  rw [← h2]
  exact orbit_min ho ha m.natDegree 0 rv a hpos (by omega) (by simpa using ha) (by simpa using hrv)

end f2

end LinAlg
end Spffl
