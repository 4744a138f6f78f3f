import Verif.Proof.CmdPm
import Verif.Props.Units

/-! The search for a generator of the units modulo any polynomial over F2^n. -/

namespace Spffl
open Res Polynomial Spffl.Props
open CPoly (PRep)

namespace Units

/-- The search when orders are defined for units only. -/
theorem genLoop_any {α R σ : Type} [CommMonoid R] {rep : α → R → Prop} {srep : σ → ℕ → Prop} {lt : σ → Res Bool} {mk : σ → Res α}
    {incr : σ → Res σ} {order : α → Res Int} {phi : ℕ} {Q : ℕ} {elt : ℕ → R} (hlt : ∀ {s n}, srep s n → (lt s).Ok fun b => (b = true ↔ n < Q))
    (hmk : ∀ {s n}, srep s n → n < Q → (mk s).Ok fun a => rep a (elt n)) (hincr : ∀ {s n}, srep s n → n < Q → (incr s).Ok fun s' => srep s' (n + 1))
    (hord : ∀ {a n}, n < Q → rep a (elt n) → (IsUnit (elt n) → order a = ok (orderOf (elt n) : Int)) ∧ (¬ IsUnit (elt n) → order a = .throw)) :
    ∀ (k : ℕ) (s : σ) (n : ℕ), srep s n → n ≤ Q → Q < n + k →
      (∃ g c, genLoop lt mk incr order phi k s = ok (some g) ∧ n ≤ c ∧ c < Q ∧ rep g (elt c) ∧ IsUnit (elt c) ∧ orderOf (elt c) = phi ∧
        ∀ i, n ≤ i → i < c → IsUnit (elt i) ∧ orderOf (elt i) ≠ phi) ∨
      (genLoop lt mk incr order phi k s = .throw ∧ ∃ c, n ≤ c ∧ c < Q ∧ ¬ IsUnit (elt c) ∧ ∀ i, n ≤ i → i < c → IsUnit (elt i) ∧ orderOf (elt i) ≠ phi) ∨
      (∀ i, n ≤ i → i < Q → IsUnit (elt i) ∧ orderOf (elt i) ≠ phi) := by
  intro k
  induction k with
  | zero => intro s n _ h1 h2; omega
  | succ k ih =>
    intro s n hs h1 h2
    unfold genLoop
    obtain ⟨b, hb, hbr⟩ := hlt hs
    rw [hb, ok_bind]
    by_cases hn : n < Q
    · rw [if_pos (hbr.2 hn)]
      obtain ⟨g, hg, hgr⟩ := hmk hs hn
      rw [hg, ok_bind]
      by_cases hu : IsUnit (elt n)
      · rw [(hord hn hgr).1 hu, ok_bind]
        by_cases hc : orderOf (elt n) = phi
        · rw [if_pos (by exact_mod_cast hc)]
          exact .inl ⟨g, n, rfl, le_rfl, hn, hgr, hu, hc, fun i h1 h2 => by omega⟩
        · rw [if_neg (by exact_mod_cast hc)]
          obtain ⟨s', hs', hsr⟩ := hincr hs hn
          rw [hs', ok_bind]
          have step : ∀ {P : ℕ → Prop}, (∀ i, n + 1 ≤ i → P i → IsUnit (elt i) ∧ orderOf (elt i) ≠ phi) →
              ∀ i, n ≤ i → P i → IsUnit (elt i) ∧ orderOf (elt i) ≠ phi := fun h i hi hp => by
            rcases Nat.eq_or_lt_of_le hi with rfl | h'
            · exact ⟨hu, hc⟩
            · exact h i h' hp
          rcases ih s' (n + 1) hsr hn (by omega) with ⟨g, c, k1, k2, k3, k4, k5, k6, k7⟩ | ⟨k1, c, k2, k3, k4, k5⟩ | k1
          · exact .inl ⟨g, c, k1, by omega, k3, k4, k5, k6, step k7⟩
          · exact .inr (.inl ⟨k1, c, by omega, k3, k4, step k5⟩)
          · exact .inr (.inr (step k1))
      · rw [(hord hn hgr).2 hu, throw_bind]
        exact .inr (.inl ⟨rfl, n, le_rfl, hn, hu, fun i h1 h2 => by omega⟩)
    · exact .inr (.inr fun i h1 h2 => by omega)

end Units

namespace Cmd
open F2nU F2nP
open Spffl.Props.CM (F2nM)
variable {m : (ZMod 2)[X]} [hm : Fact (Irreducible m)] {M : (AdjoinRoot m)[X]}

/-- The generator found for the modulus `M`: it is the least one, and all residues between 0 and it are units. -/
def FoundGenN (w : AdjoinRoot M) : Prop :=
  GenUnits w ∧ (∀ y : AdjoinRoot M, GenUnits y → f2nKey m (low M w) ≤ f2nKey m (low M y)) ∧
    ∀ y : AdjoinRoot M, y ≠ 0 → f2nKey m (low M y) < f2nKey m (low M w) → IsUnit y

/-- A residue that is neither 0 nor a unit comes before all generators. -/
def BlockedN (M : (AdjoinRoot m)[X]) : Prop :=
  ∃ y : AdjoinRoot M, y ≠ 0 ∧ ¬ IsUnit y ∧ ∀ z : AdjoinRoot M, GenUnits z → f2nKey m (low M y) < f2nKey m (low M z)

theorem foundN_not_blocked {w : AdjoinRoot M} (h : FoundGenN w) : ¬ BlockedN M := fun ⟨y, h1, h2, h3⟩ => h2 (h.2.2 y h1 (h3 w h.1))

theorem genN_of_field (hpos : 0 < M.natDegree) (h : ∀ y : AdjoinRoot M, y ≠ 0 → IsUnit y) : ∃ w : AdjoinRoot M, GenUnits w := by
  have hM : M ≠ 0 := ne_zero_of_natDegree_gt hpos
  have := Props.finite_adjoin m
  let _ := Fintype.ofFinite (AdjoinRoot m)
  have := F2nU.finite_adjoin hM
  have : Nontrivial (AdjoinRoot M) := AdjoinRoot.nontrivial M (by rw [degree_eq_natDegree hM]; exact_mod_cast hpos.ne')
  have : NoZeroDivisors (AdjoinRoot M) := ⟨fun {a b} hab => by
    by_cases ha : a = 0
    · exact .inl ha
    · exact .inr ((h a ha).mul_right_eq_zero.1 hab)⟩
  have : IsDomain (AdjoinRoot M) := NoZeroDivisors.to_isDomain _
  obtain ⟨g, hg⟩ := IsCyclic.exists_generator (α := (AdjoinRoot M)ˣ)
  exact ⟨g, genUnits_iff.2 ⟨g.isUnit, by rw [orderOf_units]; exact orderOf_eq_card_of_forall_mem_zpowers hg⟩⟩

theorem f2n_gen_any (hd30 : m.natDegree ≤ 30) {mm : CPoly F2Mod} (hmm : PRep (F2Mod.Rep m) mm M) (hpos : 0 < M.natDegree)
    (hsz : 2 ^ (2 * m.natDegree * M.natDegree) ≤ 2147483647) :
    (∃ g, ∃ w : AdjoinRoot M, F2nU.find_generator mm = ok (some g) ∧ F2nM m M g w ∧ FoundGenN w) ∨
    (F2nU.find_generator mm = .throw ∧ BlockedN M) := by
  have hM : M ≠ 0 := ne_zero_of_natDegree_gt hpos
  have := Props.finite_adjoin m
  let _ := Fintype.ofFinite (AdjoinRoot m)
  have := F2nU.finite_adjoin hM
  have hnt : Nontrivial (AdjoinRoot M) := AdjoinRoot.nontrivial M (by rw [degree_eq_natDegree hM]; exact_mod_cast hpos.ne')
  have hmax : (M.natDegree : Int) ≤ INT_MAX := by
    have h1 : 1 ≤ m.natDegree := hm.out.natDegree_pos
    have h2 : M.natDegree ≤ 2 * m.natDegree * M.natDegree := Nat.le_mul_of_pos_left _ (by omega)
    have h3 := (Nat.lt_two_pow_self (n := M.natDegree)).trans_le (Nat.pow_le_pow_right (by norm_num) h2)
    unfold INT_MAX; omega
  have D := F2nP.digits (m := m)
  have R := F2Mod.cops_ref hm.out.ne_zero
  have hq : 2 ≤ Fintype.card (AdjoinRoot m) := Fintype.one_lt_card
  have hkey : ∀ f : (AdjoinRoot m)[X], f2nKey m f = pk m f := fun f => by
    unfold pk
    rw [F2nP.card_eq]
  have key_lt : ∀ {p : (AdjoinRoot m)[X]}, p.degree < M.degree → pk m p < Fintype.card (AdjoinRoot m) ^ M.natDegree := by
    intro p hp
    by_cases h0 : p = 0
    · subst h0
      have h00 : pk m (0 : (AdjoinRoot m)[X]) = 0 := by simp [pk, polyKey, digitSum, D.zero]
      rw [h00]; positivity
    · exact (D.key_lt p).trans_le (Nat.pow_le_pow_right (by omega) (natDegree_lt_natDegree h0 hp))
  have deg_lt : ∀ {p : (AdjoinRoot m)[X]}, pk m p < Fintype.card (AdjoinRoot m) ^ M.natDegree → p.degree < M.degree := by
    intro p hp
    by_cases h0 : p = 0
    · subst h0; rw [degree_zero, bot_lt_iff_ne_bot, ne_eq, degree_eq_bot]; exact hM
    · rw [degree_eq_natDegree h0, degree_eq_natDegree hM]
      have := (Nat.pow_lt_pow_iff_right (by omega)).mp ((D.le_key h0).trans_lt hp)
      exact_mod_cast this
  have hk0 : pk m (0 : (AdjoinRoot m)[X]) = 0 := by simp [pk, polyKey, digitSum, D.zero]
  have hzero : ∀ {p : (AdjoinRoot m)[X]}, pk m p = 0 → p = 0 := fun hp => D.key_inj (hp.trans hk0.symm)
  let elt : ℕ → AdjoinRoot M := fun n => AdjoinRoot.mk M (exists_key (m := m) n).choose
  have helt : ∀ p : (AdjoinRoot m)[X], elt (pk m p) = AdjoinRoot.mk M p := fun p => by
    show AdjoinRoot.mk M _ = _
    rw [D.key_inj (exists_key (m := m) (pk m p)).choose_spec]
  have hlow : ∀ z : AdjoinRoot M, elt (pk m (low M z)) = z := fun z => (helt _).trans mk_low
  have hlt : ∀ z : AdjoinRoot M, pk m (low M z) < Fintype.card (AdjoinRoot m) ^ M.natDegree := fun z => key_lt (low_deg hM)
  have helow : ∀ {n}, n < Fintype.card (AdjoinRoot m) ^ M.natDegree → pk m (low M (elt n)) = n := fun {n} hn => by
    obtain ⟨p, rfl⟩ := exists_key (m := m) n
    rw [helt, low_mk (deg_lt hn)]
  have hpos' : ∀ {z : AdjoinRoot M}, z ≠ 0 → 1 ≤ pk m (low M z) := fun {z} hz => by
    rcases Nat.eq_zero_or_pos (pk m (low M z)) with h0 | h0
    · exact absurd (by rw [← mk_low (x := z), hzero h0, map_zero]) hz
    · exact h0
  have hgen0 : ∀ {z : AdjoinRoot M}, GenUnits z → z ≠ 0 := fun {z} hz h => by
    rw [h] at hz
    exact not_isUnit_zero hz.1
  unfold find_generator
  obtain ⟨p1, h4, hp1⟩ := sat_false.mp (CPoly.psub_sat R hmm (v := 1) (by decide))
  rw [Int.cast_one, C_1] at hp1
  rw [h4, ok_bind, ← hmm.deg, if_neg (by omega), Props.C78_f2n_totient_partial hd30 hmm hpos hmax hsz, ok_bind, ← card_units hM,
    (F2nP.fref hd30).q hmm, ok_bind, Int.toNat_natCast]
  rcases Units.genLoop_any (rep := F2nM m M) (srep := fun (s : CPoly F2Mod) n => ∃ p, PRep (F2Mod.Rep m) s p ∧ pk m p = n)
    (lt := fun s : CPoly F2Mod => ok (decide (s.degree < M.natDegree))) (mk := fun s => CMod.mk' F2Mod.cops s mm) (incr := F2nP.increment)
    (order := order) (phi := Nat.card (AdjoinRoot M)ˣ)
    (Q := Fintype.card (AdjoinRoot m) ^ M.natDegree) (elt := elt) (by
      rintro s n ⟨p, hs, rfl⟩
      rw [Ok_ok, decide_eq_true_iff, ← hs.deg]
      constructor
      · intro h
        exact (D.key_lt _).trans_le (Nat.pow_le_pow_right (by omega) h)
      · intro h
        by_cases h0 : p = 0
        · rw [h0, natDegree_zero]; exact hpos
        · exact natDegree_lt_natDegree h0 (deg_lt h)) (by
      rintro s n ⟨p, hs, rfl⟩ _
      rw [helt]
      exact sat_false.mp (CMod.mk'_sat R hs hmm hM)) (by
      rintro s n ⟨p, hs, rfl⟩ _
      exact (sat_false.mp (F2nP.increment_sat hs)).mono fun r ⟨g, h1, h2⟩ => ⟨g, h1, h2⟩) (by
      intro a n _ ha
      exact ⟨fun hu => order_ok hd30 ha hu hpos hsz hmax, fun hu => order_throw ha hu⟩)
    (Fintype.card (AdjoinRoot m) ^ M.natDegree + 1) p1 1 ⟨1, hp1, by simpa [pk] using D.key_X_pow F2nP.kv_one 0⟩
    (Nat.one_le_pow _ _ (by omega)) (by omega) with ⟨g, c, k1, k2, k3, k4, k5, k6, k7⟩ | ⟨k1, c, k2, k3, k4, k5⟩ | k1
  · refine .inl ⟨g, _, k1, k4, genUnits_iff.2 ⟨k5, k6⟩, fun y hy => ?_, fun y hy0 hy => ?_⟩
    · rw [hkey, hkey, helow k3]
      by_contra hcon
      exact (k7 _ (hpos' (hgen0 hy)) (by omega)).2 (by rw [hlow]; exact (genUnits_iff.1 hy).2)
    · rw [hkey, hkey, helow k3] at hy
      rw [← hlow y]
      exact (k7 _ (hpos' hy0) hy).1
  · refine .inr ⟨k1, elt c, fun h0 => ?_, k4, fun z hz => ?_⟩
    · have := helow k3
      rw [h0, show low M (0 : AdjoinRoot M) = 0 by
        rw [← map_zero (AdjoinRoot.mk M), low_mk]
        rw [degree_zero, bot_lt_iff_ne_bot, ne_eq, degree_eq_bot]; exact hM, hk0] at this
      omega
    · rw [hkey, hkey, helow k3]
      by_contra hcon
      rcases Nat.lt_or_ge (pk m (low M z)) c with h | h
      · exact (k5 _ (hpos' (hgen0 hz)) h).2 (by rw [hlow]; exact (genUnits_iff.1 hz).2)
      · have e : pk m (low M z) = c := by omega
        rw [← e, hlow] at k4
        exact k4 hz.1
  · exfalso
    obtain ⟨w, hw⟩ := genN_of_field hpos fun y hy => by
      have := (k1 _ (hpos' hy) (hlt y)).1
      rwa [hlow] at this
    have := (k1 _ (hpos' (hgen0 hw)) (hlt w)).2
    rw [hlow] at this
    exact this (genUnits_iff.1 hw).2

end Cmd
end Spffl
