import Verif.Proof.RandIrr
import Verif.Props.Random
import Verif.Props.F2Factor
import Verif.Props.PolyFactor

/-!
# C92: random irreducible polynomials

`src` is the sequence of words delivered by the bit source, any sequence at all; `n` bounds the number of rounds.
-/

namespace Spffl.Props
open Res Polynomial CPoly CP Random

/-! ### F2 -/

/-- The polynomial of degree `d` with constant term 1 whose other coefficients are bit 17 of the words from `q` on. -/
def F2Draw (src : ℕ → BitVec 32) (d q : ℕ) (f : (ZMod 2)[X]) : Prop :=
  f.natDegree = d ∧ f.coeff 0 = 1 ∧ ∀ i, 0 < i → i < d → (f.coeff i = 1 ↔ (src (q + (d - 1 - i))).getLsbD 17 = true)

theorem F2Draw.unique {src d q f g} (hf : F2Draw src d q f) (hg : F2Draw src d q g) (hd : 1 ≤ d) : f = g := by
  have hz : ∀ x y : ZMod 2, (x = 1 ↔ y = 1) → x = y := by decide
  have lead : ∀ {h : (ZMod 2)[X]}, h.natDegree = d → h.coeff d = 1 := fun {h} e => by
    have h0 : h ≠ 0 := by rintro rfl; simp at e; omega
    have : ∀ x : ZMod 2, x ≠ 0 → x = 1 := by decide
    exact this _ (by rw [← e]; exact leadingCoeff_ne_zero.2 h0)
  ext i
  rcases Nat.eq_zero_or_pos i with rfl | hi
  · rw [hf.2.1, hg.2.1]
  rcases lt_trichotomy i d with h | h | h
  · exact hz _ _ ((hf.2.2 i hi h).trans (hg.2.2 i hi h).symm)
  · rw [h, lead hf.1, lead hg.1]
  · rw [coeff_eq_zero_of_natDegree_lt (by rw [hf.1]; exact h), coeff_eq_zero_of_natDegree_lt (by rw [hg.1]; exact h)]

theorem f2_irr_round_ok (tm : ℕ → BitVec 64) (src : ℕ → BitVec 32) {d : ℕ} (hd : 1 ≤ d) (hmax : (d : Int) ≤ INT_MAX) (q : ℕ) :
    ∃ r, F2P.Canon r ∧ F2Draw src d q (F2P.toPoly r) ∧
      (Irreducible (F2P.toPoly r) → f2_irr_round (fun k => ok (tm k)) src d q = ok (some r, q + d)) ∧
      (¬ Irreducible (F2P.toPoly r) → f2_irr_round (fun k => ok (tm k)) src d q = ok (none, q + d)) := by
  obtain ⟨a, ha, hac, had, hacf⟩ := C68_f2_poly src q d
  have hane : a ≠ [] := by rintro rfl; simp [F2P.Canon] at hac
  obtain ⟨r, hr, hrb, hrc⟩ := F2P.set_bit_bits hane 0
  have hcan : F2P.Canon r := hrc (.inl hac)
  have hco : ∀ t, 0 < t → (F2P.toPoly r).coeff t = (F2P.toPoly a).coeff t := fun t ht => by
    rw [F2P.coeff_toPoly, F2P.coeff_toPoly, hrb]
    simp [show t ≠ 0 by omega]
  have h0 : (F2P.toPoly r).coeff 0 = 1 := by
    rw [F2P.coeff_toPoly, hrb]; simp
  have hdeg : (F2P.toPoly r).natDegree = d := by
    have : (F2P.toPoly a).coeff d ≠ 0 := by
      have h0 : F2P.toPoly a ≠ 0 := by intro e; rw [e] at had; simp at had; omega
      rw [← had]; exact leadingCoeff_ne_zero.2 h0
    refine le_antisymm ?_ (le_natDegree_of_ne_zero (by rwa [hco d (by omega)]))
    rw [natDegree_le_iff_coeff_eq_zero]
    intro t ht
    rw [hco t (by omega), coeff_eq_zero_of_natDegree_lt (by omega)]
  obtain ⟨b, hb, hbi⟩ := C54_is_irreducible_total tm hcan (by rw [hdeg]; exact hmax)
  have e : f2_irr_round (fun k => ok (tm k)) src d q = ok (if b then some r else none, q + d) := by
    unfold f2_irr_round
    have hr' : F2P.set_bit a 0 = ok r := hr
    rw [ha, ok_bind]
    simp only [hr', ok_bind, hb]
  refine ⟨r, hcan, ⟨hdeg, h0, fun i h1 h2 => by rw [hco i h1]; exact hacf i h2⟩, fun h => ?_, fun h => ?_⟩
  · rw [e, if_pos (hbi.2 h)]
  · rw [e, if_neg (fun h' => h (hbi.1 h'))]

/-- C92 over F2: the first irreducible polynomial drawn is returned, in canonical form; as long as there is none the
search goes on. -/
theorem C92_f2 (tm : ℕ → BitVec 64) (src : ℕ → BitVec 32) {d : ℕ} (hd : 1 ≤ d) (hmax : (d : Int) ≤ INT_MAX) (pos n : ℕ)
    {f : ℕ → (ZMod 2)[X]} (hf : ∀ k, F2Draw src d (pos + k * d) (f k)) :
    ((∀ k, k < n → ¬ Irreducible (f k)) → f2_poly_random_irreducible (fun k => ok (tm k)) src d n pos = timeout) ∧
    ∀ k, k < n → Irreducible (f k) → (∀ j, j < k → ¬ Irreducible (f j)) →
      ∃ r, f2_poly_random_irreducible (fun k => ok (tm k)) src d n pos = ok (r, pos + (k + 1) * d) ∧ F2P.Canon r ∧
        F2P.toPoly r = f k := by
  have R : ∀ k, ∃ r, F2P.Canon r ∧ F2P.toPoly r = f k ∧
      (Irreducible (f k) → f2_irr_round (fun k => ok (tm k)) src d (pos + k * d) = ok (some r, pos + (k + 1) * d)) ∧
      (¬ Irreducible (f k) → f2_irr_round (fun k => ok (tm k)) src d (pos + k * d) = ok (none, pos + (k + 1) * d)) := fun k => by
    obtain ⟨r, h1, h2, h3, h4⟩ := f2_irr_round_ok tm src hd hmax (pos + k * d)
    have e := h2.unique (hf k) hd
    have e' : pos + k * d + d = pos + (k + 1) * d := by ring
    rw [e, e'] at h3 h4
    exact ⟨r, h1, e, h3, h4⟩
  unfold f2_poly_random_irreducible
  rw [if_neg (by omega)]
  refine ⟨fun h => search_none (w := d) n pos fun k hk => ?_, fun k hk hirr hj => ?_⟩
  · obtain ⟨r, _, _, _, h4⟩ := R k
    exact h4 (h k hk)
  · refine search_some (w := d) n k pos hk (fun j hjk => ?_) ?_
    · obtain ⟨r, _, _, _, h4⟩ := R j
      exact h4 (hj j hjk)
    · obtain ⟨r, h1, h2, h3, _⟩ := R k
      exact ⟨r, h3 hirr, h1, h2⟩

/-- What is drawn exists, whatever the source. -/
theorem C92_f2_draw (src : ℕ → BitVec 32) {d : ℕ} (hd : 1 ≤ d) (hmax : (d : Int) ≤ INT_MAX) (q : ℕ) : ∃ f, F2Draw src d q f := by
  obtain ⟨r, _, h, _⟩ := f2_irr_round_ok (fun _ => 0) src hd hmax q
  exact ⟨_, h⟩

theorem C92_nonpositive (tm : TrimMask) (src : ℕ → BitVec 32) (n pos : ℕ) {d : Int} (hd : d < 1) :
    f2_poly_random_irreducible tm src d n pos = throw := by unfold f2_poly_random_irreducible; rw [if_pos hd]

example : f2_poly_random_irreducible (fun _ => ok 5#64) (fun k => if k = 3 then 0x20000#32 else 0) 3 2 0 = ok ([0xd#64], 6) ∧
    f2_poly_random_irreducible (fun _ => ok 5#64) (fun k => if k = 3 then 0x20000#32 else 0) 3 1 0 = timeout ∧
    f2_poly_random_irreducible (fun _ => ok 5#64) (fun _ => 0) 0 1 0 = throw := by decide +kernel

/-- C92 over F2: whatever is returned is irreducible, of the degree asked for. -/
theorem C92_f2_sound (tm : ℕ → BitVec 64) (src : ℕ → BitVec 32) {d : ℕ} (hd : 1 ≤ d) (hmax : (d : Int) ≤ INT_MAX) (pos n : ℕ) :
    f2_poly_random_irreducible (fun k => ok (tm k)) src d n pos = timeout ∨
    ∃ r q, f2_poly_random_irreducible (fun k => ok (tm k)) src d n pos = ok (r, q) ∧ F2P.Canon r ∧ Irreducible (F2P.toPoly r) ∧
      (F2P.toPoly r).natDegree = d := by
  choose f hf using fun k => C92_f2_draw src hd hmax (pos + k * d)
  obtain ⟨h1, h2⟩ := C92_f2 tm src hd hmax pos n hf
  by_cases h : ∃ k, k < n ∧ Irreducible (f k)
  · classical
    obtain ⟨hk, hi⟩ := Nat.find_spec h
    obtain ⟨r, h3, h4, h5⟩ := h2 _ hk hi fun j hj hij => Nat.find_min h hj ⟨by omega, hij⟩
    exact .inr ⟨r, _, h3, h4, by rw [h5]; exact hi, by rw [h5]; exact (hf _).1⟩
  · exact .inl (h1 fun k hk hi => h ⟨k, hk, hi⟩)

example : ∃ r q, f2_poly_random_irreducible (fun _ => ok 5#64) (fun k => if k = 3 then 0x20000#32 else 0) 3 2 0 = ok (r, q) :=
  ⟨[0xd#64], 6, by decide +kernel⟩

/-- C92 over F2: every irreducible polynomial of the degree is returned at once for some values of the words, except
`x`; so from every state of the search, however long it has been going on, it can end in the next round. -/
theorem C92_f2_reach (tm : ℕ → BitVec 64) {f : (ZMod 2)[X]} (hf : Irreducible f) (hX : f ≠ X)
    (hmax : (f.natDegree : Int) ≤ INT_MAX) (pos n : ℕ) :
    ∃ w : ℕ → BitVec 32, ∀ src : ℕ → BitVec 32, (∀ j, j < f.natDegree → src (pos + j) = w j) →
      ∃ r, f2_poly_random_irreducible (fun k => ok (tm k)) src f.natDegree (n + 1) pos = ok (r, pos + f.natDegree) ∧
        F2P.Canon r ∧ F2P.toPoly r = f := by
  have h1 : 1 ≤ f.natDegree := hf.natDegree_pos
  have hc0 : f.coeff 0 = 1 := by
    have h2 : ∀ x : ZMod 2, x ≠ 0 → x = 1 := by decide
    refine h2 _ fun h => hX ?_
    obtain ⟨g, hg⟩ := X_dvd_iff.2 h
    rcases hf.isUnit_or_isUnit hg with hu | hu
    · exact absurd hu not_isUnit_X
    · obtain ⟨c, hc, rfl⟩ := isUnit_iff.1 hu
      have : ∀ c : ZMod 2, IsUnit c → c = 1 := by decide
      rw [hg, this c hc]; simp
  refine ⟨fun j => if f.coeff (f.natDegree - 1 - j) = 1 then 0x20000#32 else 0#32, fun src hs => ?_⟩
  choose g hg using fun k => C92_f2_draw src h1 hmax (pos + k * f.natDegree)
  have e : g 0 = f := by
    refine (hg 0).unique ⟨rfl, hc0, fun i hi1 hi2 => ?_⟩ h1
    rw [zero_mul, add_zero, hs _ (by omega)]
    simp only [show f.natDegree - 1 - (f.natDegree - 1 - i) = i by omega]
    split
    · rename_i h; simp [h]
    · rename_i h; simp [h]
  obtain ⟨r, h3, h4, h5⟩ := (C92_f2 tm src h1 hmax pos (n + 1) hg).2 0 (by omega) (by rw [e]; exact hf) (by omega)
  exact ⟨r, by rw [h3]; simp, h4, by rw [h5, e]⟩

/-! ### Fp -/

section
variable {p : ℕ}

/-- The polynomial of degree `d` over Fp that the words from `q` on stand for: the first is the leading coefficient,
or 1 if that is zero. -/
def FpDraw (p : ℕ) (src : ℕ → BitVec 32) (d q : ℕ) (f : (ZMod p)[X]) : Prop :=
  f.natDegree = d ∧ (∀ i, i < d → f.coeff i = ((src (q + (d - i))).toInt : ZMod p)) ∧
  f.coeff d = if ((src q).toInt : ZMod p) = 0 then 1 else ((src q).toInt : ZMod p)

theorem FpDraw.unique {src d q} {f g : (ZMod p)[X]} (hf : FpDraw p src d q f) (hg : FpDraw p src d q g) : f = g := by
  ext i
  rcases lt_trichotomy i d with h | h | h
  · rw [hf.2.1 i h, hg.2.1 i h]
  · rw [h, hf.2.2, hg.2.2]
  · rw [coeff_eq_zero_of_natDegree_lt (by rw [hf.1]; exact h), coeff_eq_zero_of_natDegree_lt (by rw [hg.1]; exact h)]

variable [hp : Fact p.Prime]

theorem C92_fp_draw (hp' : p ≤ 46341) (src : ℕ → BitVec 32) (d q : ℕ) : ∃ f, FpDraw p src d q f := by
  obtain ⟨r, F, _, _, h⟩ := C68_fp_poly src q p d hp.out.two_le (by omega)
  exact ⟨F, h⟩

theorem fp_irr_round_ok (hp' : p ≤ 46341) (src : ℕ → BitVec 32) {d : ℕ} (hd : 1 ≤ d) (hmax : (d : Int) ≤ INT_MAX) (q : ℕ)
    {f : (ZMod p)[X]} (hf : FpDraw p src d q f) {zero : IntMod} (hz : IntMod.Rep p zero 0) :
    let round := (fp_poly_random src p d q >>= fun s => irr_round IntMod.cops FpP.is_irreducible zero d s)
    (¬ (Irreducible f ∧ f.coeff 0 ≠ 0) → round = ok (none, q + (d + 1))) ∧
    (Irreducible f ∧ f.coeff 0 ≠ 0 → ∃ r, round = ok (some r, q + (d + 1)) ∧ Fp p r (f * C f.leadingCoeff⁻¹)) := by
  obtain ⟨r, F, e, hr, h⟩ := C68_fp_poly src q p d hp.out.two_le (by omega)
  have hFf : F = f := FpDraw.unique h hf
  subst hFf
  have hF : F ≠ 0 := by rintro rfl; have := hf.1; simp at this; omega
  simp only [e, ok_bind]
  exact irr_round_ok (IntMod.cops_ref hp.out.two_le hp') hz hr hf.1 hF (C76_fp_is_irreducible hp' hr (by rw [hf.1]; exact hmax)) _

/-- C92 over Fp: the first irreducible polynomial with non-zero constant term that is drawn is returned, made monic. -/
theorem C92_fp (hp' : p ≤ 46341) (src : ℕ → BitVec 32) {d : ℕ} (hd : 1 ≤ d) (hmax : (d : Int) ≤ INT_MAX) (pos n : ℕ)
    {f : ℕ → (ZMod p)[X]} (hf : ∀ k, FpDraw p src d (pos + k * (d + 1)) (f k)) :
    ((∀ k, k < n → ¬ (Irreducible (f k) ∧ (f k).coeff 0 ≠ 0)) → fp_poly_random_irr src p d n pos = timeout) ∧
    ∀ k, k < n → Irreducible (f k) ∧ (f k).coeff 0 ≠ 0 → (∀ j, j < k → ¬ (Irreducible (f j) ∧ (f j).coeff 0 ≠ 0)) →
      ∃ r, fp_poly_random_irr src p d n pos = ok (r, pos + (k + 1) * (d + 1)) ∧ Fp p r (f k * C (f k).leadingCoeff⁻¹) := by
  have h2 := hp.out.two_le
  obtain ⟨zero, hze, hz⟩ := IntMod.mk'_ok (m := p) (r := 0) (by omega) (by unfold InInt; omega) (by decide)
  unfold fp_poly_random_irr
  rw [hze, ok_bind, if_neg (by omega)]
  have e' : ∀ k, pos + k * (d + 1) + (d + 1) = pos + (k + 1) * (d + 1) := fun k => by ring
  have R := fun k => fp_irr_round_ok hp' src hd hmax _ (hf k) (by simpa using hz)
  simp only [e'] at R
  refine ⟨fun h => search_none (w := d + 1) n pos fun k hk => (R k).1 (h k hk), fun k hk hi hj => ?_⟩
  exact search_some (w := d + 1) n k pos hk (fun j hjk => (R j).1 (hj j hjk)) ((R k).2 hi)

example : fp_poly_random_irr (fun k => if k = 3 ∨ k = 5 then 2 else 0) 3 2 2 0 = ok (⟨2, [⟨1, 3⟩, ⟨0, 3⟩, ⟨1, 3⟩]⟩, 6) ∧
    fp_poly_random_irr (fun k => if k = 3 ∨ k = 5 then 2 else 0) 3 2 1 0 = timeout := by decide +kernel

theorem monic_norm {K : Type} [Field K] {f : K[X]} (hf : Irreducible f) :
    Irreducible (f * C f.leadingCoeff⁻¹) ∧ (f * C f.leadingCoeff⁻¹).Monic ∧ (f * C f.leadingCoeff⁻¹).natDegree = f.natDegree := by
  have h0 : f.leadingCoeff⁻¹ ≠ 0 := inv_ne_zero (leadingCoeff_ne_zero.2 hf.ne_zero)
  have hu : IsUnit (C f.leadingCoeff⁻¹) := isUnit_C.2 (isUnit_iff_ne_zero.2 h0)
  refine ⟨(irreducible_mul_isUnit hu).2 hf, monic_mul_leadingCoeff_inv hf.ne_zero, natDegree_mul_C h0⟩

/-- C92 over Fp: whatever is returned is irreducible, monic, and of the degree asked for. -/
theorem C92_fp_sound (hp' : p ≤ 46341) (src : ℕ → BitVec 32) {d : ℕ} (hd : 1 ≤ d) (hmax : (d : Int) ≤ INT_MAX) (pos n : ℕ) :
    fp_poly_random_irr src p d n pos = timeout ∨
    ∃ r q g, fp_poly_random_irr src p d n pos = ok (r, q) ∧ Fp p r g ∧ Irreducible g ∧ g.Monic ∧ g.natDegree = d := by
  choose f hf using fun k => C92_fp_draw hp' src d (pos + k * (d + 1))
  obtain ⟨h1, h2⟩ := C92_fp hp' src hd hmax pos n hf
  by_cases h : ∃ k, k < n ∧ Irreducible (f k) ∧ (f k).coeff 0 ≠ 0
  · classical
    obtain ⟨hk, hi⟩ := Nat.find_spec h
    obtain ⟨r, h3, h4⟩ := h2 _ hk hi fun j hj hij => Nat.find_min h hj ⟨by omega, hij⟩
    obtain ⟨i1, i2, i3⟩ := monic_norm hi.1
    exact .inr ⟨r, _, _, h3, h4, i1, i2, by rw [i3]; exact (hf _).1⟩
  · exact .inl (h1 fun k hk hi => h ⟨k, hk, hi⟩)

theorem coeff_zero_ne {K : Type} [Field K] {f : K[X]} (hf : Irreducible f) (hm : f.Monic) (hX : f ≠ X) : f.coeff 0 ≠ 0 := by
  intro h
  obtain ⟨g, hg⟩ := X_dvd_iff.2 h
  rcases hf.isUnit_or_isUnit hg with hu | hu
  · exact absurd hu not_isUnit_X
  · obtain ⟨c, hc, rfl⟩ := isUnit_iff.1 hu
    refine hX ?_
    have : (X * C c : K[X]).leadingCoeff = 1 := by rw [← hg]; exact hm
    rw [leadingCoeff_mul, leadingCoeff_X, leadingCoeff_C, one_mul] at this
    rw [hg, this]; simp

/-- C92 over Fp: every monic irreducible polynomial except `x` is returned at once for some values of the words. -/
theorem C92_fp_reach (hp' : p ≤ 46341) {f : (ZMod p)[X]} (hf : Irreducible f) (hm : f.Monic) (hX : f ≠ X)
    (hmax : (f.natDegree : Int) ≤ INT_MAX) (pos n : ℕ) :
    ∃ w : ℕ → BitVec 32, ∀ src : ℕ → BitVec 32, (∀ j, j ≤ f.natDegree → src (pos + j) = w j) →
      ∃ r, fp_poly_random_irr src p f.natDegree (n + 1) pos = ok (r, pos + (f.natDegree + 1)) ∧ Fp p r f := by
  have h2 := hp.out.two_le
  haveI : NeZero p := ⟨by omega⟩
  have h1 : 1 ≤ f.natDegree := hf.natDegree_pos
  have hw : ∀ x : ZMod p, (((BitVec.ofNat 32 x.val).toInt : Int) : ZMod p) = x := fun x => by
    have := ZMod.val_lt x
    rw [BitVec.toInt_eq_toNat_of_lt (by rw [BitVec.toNat_ofNat, Nat.mod_eq_of_lt (by omega)]; omega), BitVec.toNat_ofNat,
      Nat.mod_eq_of_lt (by omega)]
    simp
  refine ⟨fun j => BitVec.ofNat 32 (f.coeff (f.natDegree - j)).val, fun src hs => ?_⟩
  choose g hg using fun k => C92_fp_draw hp' src f.natDegree (pos + k * (f.natDegree + 1))
  have e : g 0 = f := by
    refine (hg 0).unique ⟨rfl, fun i hi => ?_, ?_⟩
    · rw [zero_mul, add_zero, hs _ (by omega), hw]
      simp only [show f.natDegree - (f.natDegree - i) = i by omega]
    · have := hs 0 (by omega)
      rw [add_zero] at this
      rw [zero_mul, add_zero, this, hw, if_neg]
      · simp
      · simpa using hf.ne_zero
  obtain ⟨r, h3, h4⟩ := (C92_fp hp' src h1 hmax pos (n + 1) hg).2 0 (by omega)
    (by rw [e]; exact ⟨hf, coeff_zero_ne hf hm hX⟩) (by omega)
  refine ⟨r, by rw [h3]; simp, ?_⟩
  rw [e, hm.leadingCoeff] at h4
  simpa using h4

end

instance : Fact (Nat.Prime 3) := ⟨Nat.prime_three⟩

/-- x + 1 over F3 is reached. -/
example : ∃ w : ℕ → BitVec 32, ∀ src : ℕ → BitVec 32, (∀ j, j ≤ 1 → src (4 + j) = w j) →
    ∃ r, fp_poly_random_irr src 3 1 3 4 = ok (r, 6) ∧ Fp 3 r (X + C 1) := by
  have h : (X + C 1 : (ZMod 3)[X]).natDegree = 1 := natDegree_X_add_C 1
  have := C92_fp_reach (p := 3) (by norm_num) (f := X + C 1) (irreducible_of_degree_eq_one (degree_X_add_C 1)) (monic_X_add_C 1)
    (by intro e; have := congrArg (fun f => f.coeff 0) e; simp at this) (by rw [h]; decide) 4 2
  rw [h] at this
  exact this

/-! ### F2^n -/

section
variable {m : (ZMod 2)[X]}

/-- The residue modulo `m` that the `deg m` words from `q` on stand for: that of the monic polynomial of degree
`deg m` whose lower coefficients are bit 17 of the words, the highest first. -/
def ResDraw (src : ℕ → BitVec 32) (m : (ZMod 2)[X]) (q : ℕ) (x : AdjoinRoot m) : Prop :=
  ∃ g : (ZMod 2)[X], g.natDegree = m.natDegree ∧
    (∀ i, i < m.natDegree → (g.coeff i = 1 ↔ (src (q + (m.natDegree - 1 - i))).getLsbD 17 = true)) ∧ x = AdjoinRoot.mk m g

/-- The polynomial of degree `d` over F2[x]/(m) that the words from `q` on stand for, leading coefficient first; a
leading coefficient 0 is replaced by 1. -/
def F2nDraw (src : ℕ → BitVec 32) (m : (ZMod 2)[X]) (d q : ℕ) (f : (AdjoinRoot m)[X]) : Prop :=
  f.natDegree = d ∧ (∀ i, i < d → ResDraw src m (q + (d - i) * m.natDegree) (f.coeff i)) ∧
  ((ResDraw src m q 0 ∧ f.coeff d = 1) ∨ (ResDraw src m q (f.coeff d) ∧ f.coeff d ≠ 0))

theorem ResDraw.unique {src q} {x y : AdjoinRoot m} (hm : 1 ≤ m.natDegree) (hx : ResDraw src m q x) (hy : ResDraw src m q y) :
    x = y := by
  obtain ⟨f, f1, f2, rfl⟩ := hx
  obtain ⟨g, g1, g2, rfl⟩ := hy
  have hz : ∀ x y : ZMod 2, (x = 1 ↔ y = 1) → x = y := by decide
  have lead : ∀ {h : (ZMod 2)[X]}, h.natDegree = m.natDegree → h.coeff m.natDegree = 1 := fun {h} e => by
    have h0 : h ≠ 0 := by rintro rfl; simp at e; omega
    have : ∀ x : ZMod 2, x ≠ 0 → x = 1 := by decide
    exact this _ (by rw [← e]; exact leadingCoeff_ne_zero.2 h0)
  congr 1
  ext i
  rcases lt_trichotomy i m.natDegree with h | h | h
  · exact hz _ _ ((f2 i h).trans (g2 i h).symm)
  · rw [h, lead f1, lead g1]
  · rw [coeff_eq_zero_of_natDegree_lt (by rw [f1]; exact h), coeff_eq_zero_of_natDegree_lt (by rw [g1]; exact h)]

theorem F2nDraw.unique {src d q} (hm : 1 ≤ m.natDegree) {f g : (AdjoinRoot m)[X]} (hf : F2nDraw src m d q f)
    (hg : F2nDraw src m d q g) : f = g := by
  ext i
  rcases lt_trichotomy i d with h | h | h
  · exact (hf.2.1 i h).unique hm (hg.2.1 i h)
  · rw [h]
    rcases hf.2.2 with ⟨h1, h2⟩ | ⟨h1, h2⟩ <;> rcases hg.2.2 with ⟨h3, h4⟩ | ⟨h3, h4⟩
    · rw [h2, h4]
    · exact absurd (h3.unique hm h1) h4
    · exact absurd (h1.unique hm h3) h2
    · exact h1.unique hm h3
  · rw [coeff_eq_zero_of_natDegree_lt (by rw [hf.1]; exact h), coeff_eq_zero_of_natDegree_lt (by rw [hg.1]; exact h)]

theorem resDraw_resOf (src : ℕ → BitVec 32) (m : (ZMod 2)[X]) (q : ℕ) : ResDraw src m q (resOf src m q) := by
  refine ⟨_, monicOf_natDegree _ _, fun i hi => ?_, rfl⟩
  rw [monicOf_coeff, if_neg (by omega), if_pos hi]
  unfold bitOf
  split
  · rename_i h; simp [h]
  · rename_i h; simpa using h

variable [hirr : Fact (Irreducible m)]

theorem f2n_draw_exists (src : ℕ → BitVec 32) {mm : F2P} (hmm : F2P.Canon mm) (hmp : F2P.toPoly mm = m) (d q : ℕ) :
    ∃ r F, f2n_poly_random src mm d q = ok (r, q + (d + 1) * m.natDegree) ∧ F2n m r F ∧ F2nDraw src m d q F := by
  subst hmp
  obtain ⟨⟨r, q'⟩, e, F, h1, h2, h3, h4⟩ := f2n_poly_random_ok src hmm hirr.out.natDegree_pos d q
  simp only at h1 h2 h3 h4
  subst h4
  refine ⟨r, F, e, h1, h2, fun i hi => ?_, ?_⟩
  · rw [h3 i hi.le]
    unfold coefOf
    rw [if_neg (by omega)]
    exact resDraw_resOf _ _ _
  · rw [h3 d le_rfl]
    unfold coefOf fix
    rw [if_pos rfl]
    have := resDraw_resOf src (F2P.toPoly mm) q
    split
    · rename_i h; rw [h] at this; exact .inl ⟨this, rfl⟩
    · rename_i h; exact .inr ⟨this, h⟩

theorem f2n_irr_round_ok (hm : m.natDegree ≤ 30) (src : ℕ → BitVec 32) {mm : F2P} (hmm : F2P.Canon mm) (hmp : F2P.toPoly mm = m)
    {d : ℕ} (hd : 1 ≤ d) (hmax : (d : Int) ≤ INT_MAX) (q : ℕ)
    {f : (AdjoinRoot m)[X]} (hf : F2nDraw src m d q f) {zero : F2Mod} (hz : F2Mod.Rep m zero 0) :
    let round := (f2n_poly_random src mm d q >>= fun s => irr_round F2Mod.cops F2nP.is_irreducible zero d s)
    (¬ (Irreducible f ∧ f.coeff 0 ≠ 0) → round = ok (none, q + (d + 1) * m.natDegree)) ∧
    (Irreducible f ∧ f.coeff 0 ≠ 0 → ∃ r, round = ok (some r, q + (d + 1) * m.natDegree) ∧ F2n m r (f * C f.leadingCoeff⁻¹)) := by
  obtain ⟨r, F, e, hr, h⟩ := f2n_draw_exists src hmm hmp d q
  have hFf : F = f := F2nDraw.unique hirr.out.natDegree_pos h hf
  subst hFf
  have hF : F ≠ 0 := by rintro rfl; have := hf.1; simp at this; omega
  simp only [e, ok_bind]
  exact irr_round_ok (F2Mod.cops_ref hirr.out.ne_zero) hz hr hf.1 hF (C76_f2n_is_irreducible hm hr (by rw [hf.1]; exact hmax)) _

theorem C92_f2n_draw (m : (ZMod 2)[X]) [hirr : Fact (Irreducible m)] (src : ℕ → BitVec 32) (d q : ℕ) : ∃ f, F2nDraw src m d q f := by
  obtain ⟨mm, h1, h2⟩ := F2P.exists_canon m
  obtain ⟨r, F, _, _, h⟩ := f2n_draw_exists src h1 h2 d q
  exact ⟨F, h⟩

/-- C92 over F2^n: the first irreducible polynomial with non-zero constant term that is drawn is returned, made monic. -/
theorem C92_f2n (hm : m.natDegree ≤ 30) (src : ℕ → BitVec 32) {mm : F2P} (hmm : F2P.Canon mm) (hmp : F2P.toPoly mm = m)
    {d : ℕ} (hd : 1 ≤ d) (hmax : (d : Int) ≤ INT_MAX) (pos n : ℕ)
    {f : ℕ → (AdjoinRoot m)[X]} (hf : ∀ k, F2nDraw src m d (pos + k * ((d + 1) * m.natDegree)) (f k)) :
    ((∀ k, k < n → ¬ (Irreducible (f k) ∧ (f k).coeff 0 ≠ 0)) → f2n_poly_random_irr src mm d n pos = timeout) ∧
    ∀ k, k < n → Irreducible (f k) ∧ (f k).coeff 0 ≠ 0 → (∀ j, j < k → ¬ (Irreducible (f j) ∧ (f j).coeff 0 ≠ 0)) →
      ∃ r, f2n_poly_random_irr src mm d n pos = ok (r, pos + (k + 1) * ((d + 1) * m.natDegree)) ∧
        F2n m r (f k * C (f k).leadingCoeff⁻¹) := by
  obtain ⟨zero, hze, hz, _⟩ := F2Mod.mk'_ok F2P.canon_zero.good hmm hmp hirr.out.ne_zero
  have hz : F2Mod.Rep m zero 0 := by simpa using hz
  unfold f2n_poly_random_irr
  rw [hze, ok_bind, if_neg (by omega)]
  have e' : ∀ k, pos + k * ((d + 1) * m.natDegree) + (d + 1) * m.natDegree = pos + (k + 1) * ((d + 1) * m.natDegree) := fun k => by ring
  have R := fun k => f2n_irr_round_ok hm src hmm hmp hd hmax _ (hf k) hz
  simp only [e'] at R
  refine ⟨fun h => search_none (w := (d + 1) * m.natDegree) n pos fun k hk => (R k).1 (h k hk), fun k hk hi hj => ?_⟩
  exact search_some (w := (d + 1) * m.natDegree) n k pos hk (fun j hjk => (R j).1 (hj j hjk)) ((R k).2 hi)

example : f2n_poly_random_irr (fun k => if k = 4 then 0x20000 else 0) [7#64] 2 1 0 = ok (⟨2, [⟨[2#64], [7#64]⟩, ⟨[1#64], [7#64]⟩,
    ⟨[1#64], [7#64]⟩]⟩, 6) := by decide +kernel

/-- C92 over F2^n: whatever is returned is irreducible, monic, and of the degree asked for. -/
theorem C92_f2n_sound (hm : m.natDegree ≤ 30) (src : ℕ → BitVec 32) {mm : F2P} (hmm : F2P.Canon mm) (hmp : F2P.toPoly mm = m)
    {d : ℕ} (hd : 1 ≤ d) (hmax : (d : Int) ≤ INT_MAX) (pos n : ℕ) :
    f2n_poly_random_irr src mm d n pos = timeout ∨
    ∃ r q g, f2n_poly_random_irr src mm d n pos = ok (r, q) ∧ F2n m r g ∧ Irreducible g ∧ g.Monic ∧ g.natDegree = d := by
  choose f hf using fun k => C92_f2n_draw m src d (pos + k * ((d + 1) * m.natDegree))
  obtain ⟨h1, h2⟩ := C92_f2n hm src hmm hmp hd hmax pos n hf
  by_cases h : ∃ k, k < n ∧ Irreducible (f k) ∧ (f k).coeff 0 ≠ 0
  · classical
    obtain ⟨hk, hi⟩ := Nat.find_spec h
    obtain ⟨r, h3, h4⟩ := h2 _ hk hi fun j hj hij => Nat.find_min h hj ⟨by omega, hij⟩
    obtain ⟨i1, i2, i3⟩ := monic_norm hi.1
    exact .inr ⟨r, _, _, h3, h4, i1, i2, by rw [i3]; exact (hf _).1⟩
  · exact .inl (h1 fun k hk hi => h ⟨k, hk, hi⟩)

/-- every residue is drawn from some words -/
theorem resDraw_exists (x : AdjoinRoot m) : ∃ w : ℕ → BitVec 32, ∀ (src : ℕ → BitVec 32) q,
    (∀ j, j < m.natDegree → src (q + j) = w j) → ResDraw src m q x := by
  obtain ⟨g, rfl⟩ := AdjoinRoot.mk_surjective x
  have hm1 : m.Monic := by
    have : ∀ x : ZMod 2, x ≠ 0 → x = 1 := by decide
    exact this _ (leadingCoeff_ne_zero.2 hirr.out.ne_zero)
  have hlt : (g %ₘ m).degree < m.degree := degree_modByMonic_lt _ hm1
  have hd : (m + g %ₘ m).natDegree = m.natDegree := natDegree_add_eq_left_of_degree_lt hlt
  refine ⟨fun j => if (m + g %ₘ m).coeff (m.natDegree - 1 - j) = 1 then 0x20000#32 else 0#32, fun src q hs => ⟨m + g %ₘ m, hd, fun i hi => ?_, ?_⟩⟩
  · rw [hs _ (by omega)]
    simp only [show m.natDegree - 1 - (m.natDegree - 1 - i) = i by omega]
    split
    · rename_i h; simp [h]
    · rename_i h; simpa using h
  · rw [AdjoinRoot.mk_eq_mk]
    refine ⟨g /ₘ m - 1, ?_⟩
    linear_combination -(modByMonic_add_div g m)

/-- C92 over F2^n: every monic irreducible polynomial except `x` is returned at once for some values of the words. -/
theorem C92_f2n_reach (hm : m.natDegree ≤ 30) {mm : F2P} (hmm : F2P.Canon mm) (hmp : F2P.toPoly mm = m)
    {f : (AdjoinRoot m)[X]} (hf : Irreducible f) (hmon : f.Monic) (hX : f ≠ X)
    (hmax : (f.natDegree : Int) ≤ INT_MAX) (pos n : ℕ) :
    ∃ w : ℕ → BitVec 32, ∀ src : ℕ → BitVec 32, (∀ j, j < (f.natDegree + 1) * m.natDegree → src (pos + j) = w j) →
      ∃ r, f2n_poly_random_irr src mm f.natDegree (n + 1) pos = ok (r, pos + (f.natDegree + 1) * m.natDegree) ∧ F2n m r f := by
  have h1 : 1 ≤ f.natDegree := hf.natDegree_pos
  have hN : 0 < m.natDegree := hirr.out.natDegree_pos
  choose w hw using fun x : AdjoinRoot m => resDraw_exists x
  refine ⟨fun j => w (f.coeff (f.natDegree - j / m.natDegree)) (j % m.natDegree), fun src hs => ?_⟩
  choose g hg using fun k => C92_f2n_draw m src f.natDegree (pos + k * ((f.natDegree + 1) * m.natDegree))
  have key : ∀ i, i ≤ f.natDegree → ResDraw src m (pos + (f.natDegree - i) * m.natDegree) (f.coeff i) := fun i hi => by
    refine hw _ _ _ fun j hj => ?_
    have hlt : (f.natDegree - i) * m.natDegree + j < (f.natDegree + 1) * m.natDegree := by
      calc _ < (f.natDegree - i) * m.natDegree + m.natDegree := by omega
        _ = (f.natDegree - i + 1) * m.natDegree := by ring
        _ ≤ _ := Nat.mul_le_mul_right _ (by omega)
    have := hs _ hlt
    rw [← add_assoc] at this
    rw [this]
    simp only [show ((f.natDegree - i) * m.natDegree + j) / m.natDegree = f.natDegree - i by
        rw [Nat.mul_comm, Nat.mul_add_div hN, Nat.div_eq_of_lt hj, add_zero],
      show ((f.natDegree - i) * m.natDegree + j) % m.natDegree = j by
        rw [Nat.mul_comm, Nat.mul_add_mod, Nat.mod_eq_of_lt hj],
      show f.natDegree - (f.natDegree - i) = i by omega]
  have e : g 0 = f := by
    refine (hg 0).unique hN ⟨rfl, fun i hi => ?_, .inr ⟨?_, ?_⟩⟩
    · rw [zero_mul, add_zero]; exact key i hi.le
    · have := key f.natDegree le_rfl
      simpa using this
    · exact leadingCoeff_ne_zero.2 hf.ne_zero
  obtain ⟨r, h3, h4⟩ := (C92_f2n hm src hmm hmp h1 hmax pos (n + 1) hg).2 0 (by omega)
    (by rw [e]; exact ⟨hf, coeff_zero_ne hf hmon hX⟩) (by omega)
  refine ⟨r, by rw [h3]; simp, ?_⟩
  rw [e, hmon.leadingCoeff] at h4
  simpa using h4

end

/-- C92: a degree below 1 is refused, whatever the modulus that can be set up. -/
theorem C92_fp_nonpositive (src : ℕ → BitVec 32) {p : ℕ} (hp : 1 ≤ p) (hp' : (p : Int) ≤ INT_MAX) (n pos : ℕ) {d : Int} (hd : d < 1) :
    fp_poly_random_irr src p d n pos = throw := by
  obtain ⟨zero, hze, _⟩ := IntMod.mk'_ok (m := p) (r := 0) hp (by unfold InInt; have : INT_MAX = 2147483647 := rfl; have : INT_MIN = -2147483648 := rfl; omega) (by decide)
  unfold fp_poly_random_irr
  rw [hze, ok_bind, if_pos hd]

theorem C92_f2n_nonpositive (src : ℕ → BitVec 32) {mm : F2P} (hmm : F2P.Canon mm) (h0 : F2P.toPoly mm ≠ 0) (n pos : ℕ) {d : Int}
    (hd : d < 1) : f2n_poly_random_irr src mm d n pos = throw := by
  obtain ⟨zero, hze, hz, _⟩ := F2Mod.mk'_ok F2P.canon_zero.good hmm rfl h0
  unfold f2n_poly_random_irr
  rw [hze, ok_bind, if_pos hd]

/-- C92: over Fp the polynomial `x` is never returned, though it is irreducible of degree 1. -/
theorem C92_violated_x {p : ℕ} [Fact p.Prime] (hp' : p ≤ 46341) (src : ℕ → BitVec 32) (pos n : ℕ) (r : CPoly IntMod) (q : ℕ)
    (h : fp_poly_random_irr src p 1 n pos = ok (r, q)) : ¬ Fp p r X := by
  intro hX
  choose f hf using fun k => C92_fp_draw hp' src 1 (pos + k * (1 + 1))
  obtain ⟨h1, h2⟩ := C92_fp hp' src (d := 1) le_rfl (by decide) pos n hf
  by_cases h' : ∃ k, k < n ∧ Irreducible (f k) ∧ (f k).coeff 0 ≠ 0
  · classical
    obtain ⟨hk, hi⟩ := Nat.find_spec h'
    obtain ⟨r', h3, h4⟩ := h2 _ hk hi fun j hj hij => Nat.find_min h' hj ⟨by omega, hij⟩
    rw [show ((1 : ℕ) : Int) = 1 from rfl, h] at h3
    cases h3
    have hc := IntMod.cops_ref (Fact.out (p := p.Prime)).two_le hp'
    obtain ⟨c, hc1, hc2⟩ := sat_false.mp (get_coeff_sat hc hX 0)
    obtain ⟨c', hc3, hc4⟩ := sat_false.mp (get_coeff_sat hc h4 0)
    rw [hc1] at hc3
    cases hc3
    have := hc2.2.2.2.symm.trans hc4.2.2.2
    simp only [coeff_X_zero, mul_coeff_zero, coeff_C_zero] at this
    rcases mul_eq_zero.1 this.symm with h5 | h5
    · exact hi.2 h5
    · exact inv_ne_zero (leadingCoeff_ne_zero.2 hi.1.ne_zero) h5
  · have := h1 fun k hk hi => h' ⟨k, hk, hi⟩
    rw [show ((1 : ℕ) : Int) = 1 from rfl, h] at this
    cases this

example : fp_poly_random_irr (fun k => if k = 0 then 2 else 1) 3 1 1 0 = ok (⟨1, [⟨2, 3⟩, ⟨1, 3⟩]⟩, 2) ∧
    fp_poly_random_irr (fun k => if k % 2 = 0 then 2 else 0) 3 1 5 0 = timeout ∧ fp_poly_random_irr (fun _ => 1) 3 0 5 0 = throw ∧
    f2n_poly_random_irr (fun _ => 1) [7#64] 0 5 0 = throw := by decide +kernel

end Spffl.Props
