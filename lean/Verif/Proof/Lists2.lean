/-
list_elements.cpp: polynomials and residue classes over Fp and F2^n, and integers.
-/
import Verif.Proof.Lists

set_option linter.unusedSectionVars false

namespace Spffl
open Res Polynomial List
open CPoly (PRep)

namespace Lists

/-! ### polynomials over a finite field -/
section cpoly
variable {α K : Type} [Field K] [Fintype K] {X : FCtx α} {rep : α → K → Prop} {kv : K → ℕ} {κ : ℕ → K} {p : ℕ}

noncomputable abbrev key (kv : K → ℕ) (f : K[X]) : ℕ := polyKey (Fintype.card K) kv f

theorem key_zero (D : Digits (Fintype.card K) kv) : key kv (0 : K[X]) = 0 := by simp [key, polyKey, digitSum, D.zero]

theorem key_lt_of_degree (D : Digits (Fintype.card K) kv) {f : K[X]} {n : ℕ} (h : f.degree < n) : key kv f < Fintype.card K ^ n := by
  by_cases h0 : f = 0
  · subst h0; rw [key_zero D]; exact Nat.pow_pos D.pos
  · have : f.natDegree < n := (natDegree_lt_iff_degree_lt h0).mpr h
    exact (D.key_lt f).trans_le (Nat.pow_le_pow_right D.pos (by omega))

theorem degree_lt_of_key (D : Digits (Fintype.card K) kv) {f : K[X]} {n : ℕ} (h : key kv f < Fintype.card K ^ n) : f.degree < n := by
  by_cases h0 : f = 0
  · subst h0; rw [degree_zero]; exact WithBot.bot_lt_coe n
  · rw [← natDegree_lt_iff_degree_lt h0]
    exact (Nat.pow_lt_pow_iff_right Fintype.one_lt_card).mp ((D.le_key h0).trans_lt h)

theorem key_surj (D : Digits (Fintype.card K) kv) (n : ℕ) : ∃ f : K[X], key kv f = n := by
  obtain ⟨d, hd⟩ : ∃ d, n < Fintype.card K ^ d := ⟨n, Nat.lt_pow_self Fintype.one_lt_card⟩
  let F : {g : K[X] // g.degree < d} → Fin (Fintype.card K ^ d) := fun g => ⟨key kv g.1, key_lt_of_degree D g.2⟩
  have hF : Function.Injective F := fun a b h => Subtype.ext (D.key_inj (Fin.ext_iff.mp h))
  haveI : Finite {g : K[X] // g.degree < (d : WithBot ℕ)} := Finite.of_injective F hF
  have hb := hF.bijective_of_nat_card_le (by rw [card_degree_lt]; simp)
  obtain ⟨g, hg⟩ := hb.2 ⟨n, hd⟩
  exact ⟨g.1, Fin.ext_iff.mp hg⟩

noncomputable def keyE (D : Digits (Fintype.card K) kv) : K[X] ≃ ℕ := Equiv.ofBijective (key kv) ⟨D.key_inj, key_surj D⟩

theorem keyE_apply (D : Digits (Fintype.card K) kv) (f : K[X]) : keyE D f = key kv f := rfl

theorem polyLt_iff (H : FRef X rep kv κ p) {f g : K[X]} : CPoly.polyLt (fun x y => kv x < kv y) f g ↔ key kv f < key kv g := by
  have D := H.dig
  constructor
  · exact fun h => D.key_lt_key h
  · intro h
    rcases CPoly.polyLt_total H.ref f g with e | e | e
    · rw [e] at h; exact absurd h (lt_irrefl _)
    · exact e
    · have := D.key_lt_key e
      unfold key at h; omega

theorem c_lt (H : FRef X rep kv κ p) {r mx : CPoly α} {f : K[X]} {n : ℕ} (hr : PRep rep r f) (hm : PRep rep mx (Polynomial.X ^ n)) :
    (CPoly.lt X.O r mx).Sat False fun b => b = true ↔ keyE H.dig f < Fintype.card K ^ n := by
  refine (CPoly.lt_sat H.ref hr hm).mono fun b hb => ?_
  rw [hb, polyLt_iff H, keyE_apply]
  unfold key
  rw [H.dig.key_X_pow H.one]

theorem c_monomial (H : FRef X rep kv κ p) {z o : α} (hz : rep z 0) (ho : rep o 1) (n : ℕ) : ∃ c r, CPoly.const X.O z = ok c ∧
    PRep rep c 0 ∧ CPoly.set_coeff X.O c n o = ok r ∧ PRep rep r (Polynomial.X ^ n) := by
  obtain ⟨c, h1, h2⟩ := sat_false.mp (CPoly.const_sat H.ref hz)
  rw [C_0] at h2
  obtain ⟨r, h3, h4⟩ := sat_false.mp (CPoly.set_coeff_sat H.ref h2 n ho)
  refine ⟨c, r, h1, h2, h3, ?_⟩
  convert h4 using 1
  ext i
  rw [coeff_X_pow, coeff_update_apply, coeff_zero]

theorem cpoly_list_ok (H : FRef X rep kv κ p) {z o : α} (hz : rep z 0) (ho : rep o 1) {n : ℕ} (hn : n < 2147483647) :
    (cpoly_list X z o (((Fintype.card K - 1) * Fintype.card K ^ n : ℕ) : Int) n).Ok fun r =>
      Enum (PRep rep) (fun a b => CPoly.lt X.O a b = ok true) r (fun f => f ≠ 0 ∧ f.natDegree = n) := by
  have D := H.dig
  have hq : 2 ≤ Fintype.card K := Fintype.one_lt_card
  have hpow : 0 < Fintype.card K ^ n := Nat.pow_pos (by omega)
  have hN : Fintype.card K ^ (n + 1) - Fintype.card K ^ n = (Fintype.card K - 1) * Fintype.card K ^ n := by
    rw [pow_succ, Nat.sub_mul, one_mul, Nat.mul_comm]
  have hN0 : 0 < (Fintype.card K - 1) * Fintype.card K ^ n := Nat.mul_pos (by omega) hpow
  obtain ⟨c, mn, h1, h1z, h2, h2r⟩ := c_monomial H hz ho n
  obtain ⟨c', mx, h1', _, h3, h3r⟩ := c_monomial H hz ho (n + 1)
  obtain rfl : c = c' := by rw [h1] at h1'; exact ok.inj h1'
  have kX : ∀ d, keyE D (Polynomial.X ^ d : K[X]) = Fintype.card K ^ d := fun d => D.key_X_pow H.one d
  have main := listLoop_fresh (V := False) (e := keyE D) (P := fun _ => True) (srep := PRep rep)
    (rep := PRep rep) (f := id) (Q := Fintype.card K ^ (n + 1)) (lt := fun r => CPoly.lt X.O r mx) (keep := fun _ => ok true)
    (mk := ok) (incr := X.incr) (k := (Fintype.card K - 1) * Fintype.card K ^ n + 1) (s := mn) (x := Polynomial.X ^ n) (d := CFac.dfltPoly X)
    (N := (Fintype.card K - 1) * Fintype.card K ^ n) ?_ ?_ ?_ ?_ h2r ?_ ?_ hN0
  · obtain ⟨r, hr, g1, g2, g3⟩ := sat_false.mp main
    rw [kX] at g2 g3
    rw [length_elems_true, hN] at g2
    rw [List.take_of_length_le (by omega)] at g3
    rw [bind_eq_ok] at hr
    obtain ⟨rv, r1, r2⟩ := hr
    unfold cpoly_list
    have e1 : iadd (n : Int) 1 = ok (((n + 1 : ℕ)) : Int) := by
      rw [iadd, chk_ok (by unfold InInt; omega), Nat.cast_add, Nat.cast_one]
    rw [r1, ok_bind, h1, ok_bind, ok_bind, h2, ok_bind, e1, ok_bind, h3, ok_bind, Int.toNat_natCast, r2, ok_bind, Ok_ok]
    refine enum_of g3 (fun x y _ _ h => h) (fun y => ?_) ?_
    · simp only [id, keyE_apply, true_and]
      constructor
      · rintro ⟨hy, rfl⟩
        exact ⟨y, D.le_key hy, D.key_lt y, rfl⟩
      · rintro ⟨x, a, b, rfl⟩
        have hx : x ≠ 0 := by
          rintro rfl
          rw [key_zero D] at a; omega
        exact ⟨hx, D.natDegree_of_key hq a b⟩
    · intro a b x y ha hb hlt _
      obtain ⟨t, t1, t2⟩ := sat_false.mp (CPoly.lt_sat H.ref ha hb)
      rw [t1, t2.mpr ((polyLt_iff H).mpr hlt)]
  · intro s x hs; exact c_lt H hs h3r
  · intro s x _ _; rw [Sat_ok]; simp
  · intro s x hs _; rw [Sat_ok]; exact hs
  · intro s x hs _; exact H.incr hs
  · rw [kX, hN]; omega
  · rw [length_elems_true, kX, hN]

/-! ### residue classes -/
variable {M : K[X]} {mm : CPoly α}

theorem natCard_adjoin (hM : M ≠ 0) : Nat.card (AdjoinRoot M) = Fintype.card K ^ M.natDegree := by
  have e : {g : K[X] // g.degree < M.natDegree} ≃ AdjoinRoot M := by
    refine Equiv.ofBijective (fun g => AdjoinRoot.mk M g.1) ⟨fun a b h => ?_, fun x => ?_⟩
    · refine Subtype.ext (CMod.mk_inj ?_ ?_ h)
      · rw [degree_eq_natDegree hM]; exact a.2
      · rw [degree_eq_natDegree hM]; exact b.2
    · obtain ⟨p, h1, h2⟩ := CMod.exists_lowdeg hM x
      exact ⟨⟨p, by rw [← degree_eq_natDegree hM]; exact h1⟩, h2⟩
  rw [← Nat.card_congr e, card_degree_lt]

theorem finite_adjoin (hM : M ≠ 0) : Finite (AdjoinRoot M) := by
  refine Nat.finite_of_card_ne_zero ?_
  rw [natCard_adjoin hM]
  have := Fintype.card_pos (α := K)
  positivity

theorem c_fill_ok (H : FRef X rep kv κ p) (hmm : PRep rep mm M) (hM : M ≠ 0) {T : AdjoinRoot M → Prop} {keep : CPoly α → Res Bool}
    (hkeep : ∀ s f, PRep rep s f → (keep s).Sat False fun b => b = true ↔ T (AdjoinRoot.mk M f)) {z o : α} (hz : rep z 0) (ho : rep o 1)
    {d : CMod α} (h0 : 0 < Nat.card {y // T y}) :
    (c_fill X d z o (Fintype.card K) mm keep (Nat.card {y // T y} : ℕ)).Ok fun r =>
      Enum (CMod.Rep rep M) (fun a b => CMod.lt X.O a b = ok true) r T := by
  classical
  have D := H.dig
  obtain ⟨c, mx, h1, h1z, h2, h2r⟩ := c_monomial H hz ho M.natDegree
  have hdeg : ∀ {x : K[X]}, keyE D x < Fintype.card K ^ M.natDegree → x.degree < M.degree := fun hx => by
    rw [degree_eq_natDegree hM]; exact degree_lt_of_key D hx
  have hinj : ∀ x y : K[X], keyE D x < Fintype.card K ^ M.natDegree → keyE D y < Fintype.card K ^ M.natDegree →
      AdjoinRoot.mk M x = AdjoinRoot.mk M y → x = y :=
    fun x y hx hy h => CMod.mk_inj (hdeg hx) (hdeg hy) h
  have hS : ∀ y, T y ↔ ∃ x : K[X], 0 ≤ keyE D x ∧ keyE D x < Fintype.card K ^ M.natDegree ∧ T (AdjoinRoot.mk M x) ∧ AdjoinRoot.mk M x = y := by
    intro y
    constructor
    · intro hy
      obtain ⟨p, hp, rfl⟩ := CMod.exists_lowdeg hM y
      rw [degree_eq_natDegree hM] at hp
      exact ⟨p, Nat.zero_le _, key_lt_of_degree D hp, hy, rfl⟩
    · rintro ⟨x, -, -, h, rfl⟩; exact h
  have hcard := length_elems_map hinj hS
  have hz0 : keyE D (0 : K[X]) = 0 := key_zero D
  have main := listLoop_fresh (V := False) (e := keyE D) (P := fun p => T (AdjoinRoot.mk M p)) (srep := PRep rep)
    (rep := CMod.Rep rep M) (f := AdjoinRoot.mk M) (Q := Fintype.card K ^ M.natDegree) (lt := fun r => CPoly.lt X.O r mx) (keep := keep)
    (mk := fun r => CMod.mk' X.O r mm) (incr := X.incr) (k := Fintype.card K ^ M.natDegree + 1) (s := c) (x := 0) (d := d)
    (N := Nat.card {y // T y}) ?_ ?_ ?_ ?_ h1z ?_ ?_ h0
  · rw [hz0, hcard] at main
    obtain ⟨r, hr, g1, g2, g3⟩ := sat_false.mp main
    rw [List.take_of_length_le (by omega)] at g3
    rw [bind_eq_ok] at hr
    obtain ⟨rv, r1, r2⟩ := hr
    unfold c_fill
    rw [r1, ok_bind, h1, ok_bind, ok_bind, ← hmm.deg, h2, ok_bind, r2, ok_bind, Ok_ok]
    refine enum_of g3 hinj hS ?_
    intro a b x y ha hb hxy hy
    obtain ⟨t, t1, t2⟩ := sat_false.mp (CMod.lt_sat H.ref ha hb)
    rw [t1, t2.mpr ((CMod.ordM_mk (hdeg (hxy.trans hy)) (hdeg hy)).mpr ((polyLt_iff H).mpr hxy))]
  · intro s x hs; exact c_lt H hs h2r
  · intro s x hs _; exact hkeep s x hs
  · intro s x hs _; exact CMod.mk'_sat H.ref hs hmm hM
  · intro s x hs _; exact H.incr hs
  · exact Nat.lt_succ_of_le (Nat.sub_le _ _)
  · rw [hz0, hcard]

theorem isGcd_isUnit {d f g : K[X]} (h : IsGcd d f g) (hg : g ≠ 0) : d.natDegree = 0 ↔ IsCoprime f g := by
  have hd0 : d ≠ 0 := fun e => hg (zero_dvd_iff.mp (e ▸ h.2.1))
  rw [← isRelPrime_iff_isCoprime]
  constructor
  · intro h0 k hk1 hk2
    have hu : IsUnit d := by
      rw [eq_C_of_natDegree_eq_zero h0] at hd0 ⊢
      exact isUnit_C.mpr (IsUnit.mk0 _ (by simpa using hd0))
    exact isUnit_of_dvd_unit (h.2.2 k hk1 hk2) hu
  · intro hr
    exact natDegree_eq_zero_of_isUnit (hr h.1 h.2.1)

theorem c_unit_test_sat (H : FRef X rep kv κ p) {r : CPoly α} {f : K[X]} (hr : PRep rep r f) (hmm : PRep rep mm M) (hM : M ≠ 0) {z : α}
    (hz : rep z 0) : (c_unit_test X z r mm).Sat False fun b => b = true ↔ IsCoprime f M := by
  unfold c_unit_test
  refine (CPoly.gcd_sat H.ref hr hmm).bind fun g ⟨d, hd, hgcd⟩ => ?_
  have hd0 : d ≠ 0 := fun e => hM (zero_dvd_iff.mp (e ▸ hgcd.2.1))
  rw [← hd.deg, ← isGcd_isUnit hgcd hM]
  split
  · rename_i h
    refine (CPoly.const_sat H.ref hz).bind fun c hc => (CPoly.eq_sat H.ref hd hc).bind fun e he => ?_
    rw [Sat_ok]
    rw [C_0] at hc
    have : e = false := by
      cases e
      · rfl
      · exact absurd (by simpa using he.mp rfl) hd0
    simp [this, h]
  · rename_i h
    rw [Sat_ok]; simp [h]

theorem c_nonunit_test_sat (H : FRef X rep kv κ p) {r : CPoly α} {f : K[X]} (hr : PRep rep r f) (hmm : PRep rep mm M) (hM : M ≠ 0) {z : α}
    (hz : rep z 0) : (c_nonunit_test X z r mm).Sat False fun b => b = true ↔ ¬ IsCoprime f M := by
  unfold c_nonunit_test
  refine (CPoly.gcd_sat H.ref hr hmm).bind fun g ⟨d, hd, hgcd⟩ => ?_
  have hd0 : d ≠ 0 := fun e => hM (zero_dvd_iff.mp (e ▸ hgcd.2.1))
  rw [← hd.deg, ← isGcd_isUnit hgcd hM]
  split
  · rename_i h
    rw [Sat_ok]; simp [h]
  · rename_i h
    refine (CPoly.const_sat H.ref hz).bind fun c hc => (CPoly.eq_sat H.ref hd hc).mono fun e he => ?_
    rw [he, C_0]
    simp only [hd0, false_iff, h]

variable {zr or : Res α} {card : Res Int} {d : CMod α}

theorem c_all_ok (H : FRef X rep kv κ p) (hmm : PRep rep mm M) (hM : M ≠ 0) (hz : zr.Ok fun z => rep z 0) (ho : or.Ok fun o => rep o 1)
    (hc : card = ok ((Fintype.card K ^ M.natDegree : ℕ) : Int)) :
    (cpolymod_list X d zr or card (Fintype.card K) mm .all).Ok fun r =>
      Enum (CMod.Rep rep M) (fun a b => CMod.lt X.O a b = ok true) r (fun _ => True) := by
  obtain ⟨z, rfl, hz⟩ := hz
  obtain ⟨o, rfl, ho⟩ := ho
  unfold cpolymod_list
  rw [hc]
  dsimp only
  rw [ok_bind, ok_bind, ok_bind, ← natCard_adjoin hM, ← card_true]
  haveI := finite_adjoin hM
  exact c_fill_ok H hmm hM (fun s f _ => by rw [Sat_ok]; simp) hz ho (by rw [card_true]; exact Nat.card_pos)

theorem c_units_ok (H : FRef X rep kv κ p) (hmm : PRep rep mm M) (hpos : 0 < M.natDegree) (hmax : (M.natDegree : Int) ≤ INT_MAX)
    (ht : CFac.TotOk M) (hlt : polyTotient M ≤ 2147483647) (hz : zr.Ok fun z => rep z 0) (ho : or.Ok fun o => rep o 1) :
    (cpolymod_list X d zr or card (Fintype.card K) mm .units).Ok fun r =>
      Enum (CMod.Rep rep M) (fun a b => CMod.lt X.O a b = ok true) r IsUnit := by
  have hM : M ≠ 0 := by rintro rfl; simp at hpos
  haveI := finite_adjoin hM
  obtain ⟨z, rfl, hz⟩ := hz
  obtain ⟨o, rfl, ho⟩ := ho
  obtain ⟨t, t1, rfl⟩ := sat_false.mp (CFac.totient_sat H hmm hpos hmax ht hlt)
  unfold cpolymod_list
  dsimp only
  rw [t1, ok_bind, ok_bind, ok_bind]
  have : polyTotient M = Nat.card {x : AdjoinRoot M // IsUnit x} := by rw [card_isUnit, card_units hM]; rfl
  rw [this]
  refine c_fill_ok H hmm hM (fun s f hs => ?_) hz ho (by rw [card_isUnit]; exact Nat.card_pos)
  exact (c_unit_test_sat H hs hmm hM hz).mono fun b hb => by rw [hb, CMod.isUnit_mk]

theorem c_nonunits_ok (H : FRef X rep kv κ p) (hmm : PRep rep mm M) (hpos : 0 < M.natDegree) (hmax : (M.natDegree : Int) ≤ INT_MAX)
    (ht : CFac.TotOk M) (hlt : Fintype.card K ^ M.natDegree ≤ 2147483647) (hz : zr.Ok fun z => rep z 0) (ho : or.Ok fun o => rep o 1)
    (hc : card = ok ((Fintype.card K ^ M.natDegree : ℕ) : Int)) :
    (cpolymod_list X d zr or card (Fintype.card K) mm .non_units).Ok fun r =>
      Enum (CMod.Rep rep M) (fun a b => CMod.lt X.O a b = ok true) r (fun x => ¬ IsUnit x) := by
  have hM : M ≠ 0 := by rintro rfl; simp at hpos
  haveI := finite_adjoin hM
  obtain ⟨z, rfl, hz⟩ := hz
  obtain ⟨o, rfl, ho⟩ := ho
  have hcc := card_compl (M := AdjoinRoot M) IsUnit
  have h1 : polyTotient M = Nat.card {x : AdjoinRoot M // IsUnit x} := by rw [card_isUnit, card_units hM]; rfl
  rw [natCard_adjoin hM, ← h1] at hcc
  obtain ⟨t, t1, rfl⟩ := sat_false.mp (CFac.totient_sat H hmm hpos hmax ht (by omega))
  unfold cpolymod_list
  dsimp only
  rw [hc, ok_bind, t1, ok_bind, isub,
    show ((Fintype.card K ^ M.natDegree : ℕ) : Int) - (polyTotient M : Int) = (Nat.card {x : AdjoinRoot M // ¬ IsUnit x} : Int) by omega,
    chk_ok (by unfold InInt; omega), ok_bind, ok_bind, ok_bind]
  have h1 : ¬ IsUnit (0 : AdjoinRoot M) := by
    rw [← map_zero (AdjoinRoot.mk M), CMod.isUnit_mk, isCoprime_zero_left]
    intro h
    rw [natDegree_eq_zero_of_isUnit h] at hpos; exact lt_irrefl _ hpos
  haveI : Nonempty {x : AdjoinRoot M // ¬ IsUnit x} := ⟨⟨0, h1⟩⟩
  refine c_fill_ok H hmm hM (fun s f hs => ?_) hz ho Nat.card_pos
  exact (c_nonunit_test_sat H hs hmm hM hz).mono fun b hb => by rw [hb, CMod.isUnit_mk]

end cpoly
end Lists
end Spffl
