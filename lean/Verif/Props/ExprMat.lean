import Verif.Proof.ExprVec
import Verif.Props.ExprPoly
import Verif.Props.BitText

/-!
# C98: the calculators for matrices and for vectors
-/

namespace Spffl.Props
namespace Expr98
open Res F2P CPoly Polynomial Spffl.Expr Spffl.VText Spffl.Scan PText93 VText94 Expr90 Expr96

/-! ### What is claimed -/

/-- What the matrix calculator does: it prints a text of a value that the expression may have, or it throws, and then an error
is a possible outcome of the expression.  Where `U`, the behaviour may be undefined instead. -/
def MAnswers {F : Type} (U : Prop) (Text : List Char → F → Prop) (r : Res (List (List Char))) (S : Option (MVal F) → Prop) : Prop :=
  (∃ w v, r = ok [w] ∧ S (some v) ∧ MShows Text w v) ∨ (r = .throw ∧ S none) ∨ (U ∧ r = ub)

/-- Every literal of the expression, other than the exponents, is of one of the known forms. -/
def MLiterals {F : Type} (Text : List Char → F → Prop) (files : String → Option (List Char)) (t : Tree) : Prop :=
  ∀ s, (false, s) ∈ t.lits false → ∃ r, MLit Text files s r

/-- What the vector calculator does, given the value of the expression. -/
def VAnswers {F : Type} {n : ℕ} (U : Prop) (Text : List Char → F → Prop) (r : Res (List (List Char))) : Option (VVal n F) → Prop
  | some v => (∃ w, r = ok [w] ∧ VShows Text w v) ∨ (U ∧ r = ub)
  | none => r = .throw ∨ (U ∧ r = ub)

/-- Every literal of the expression, other than the exponents, is the text of the vector that `lit` gives, or has no brackets. -/
def VLiterals {F : Type} {n : ℕ} (Text : List Char → F → Prop) (lit : String → Option (Fin n → F)) (t : Tree) : Prop :=
  ∀ s, (false, s) ∈ t.lits false → (∃ x, lit s = some x ∧ VLit Text s x) ∨ (lit s = none ∧ NoLit s)

section General
variable {F : Type} [Field F] {α : Type} {U : Prop} {O : TOps α} {E : EltIO α} {rep : α → F → Prop} {Text : List Char → F → Prop} {zero one : α}

omit [Field F] in
theorem m_answers {r : Res (List (List Char))} {S : Option (MVal F) → Prop} (h : Out U r (fun out v => ∃ w, out = [w] ∧ MShows Text w v) S) :
    MAnswers U Text r S := by
  cases r with
  | ok out =>
    obtain ⟨v, ⟨w, rfl, h1⟩, h2⟩ := h
    exact .inl ⟨w, v, rfl, h2, h1⟩
  | throw => exact .inr (.inl ⟨rfl, h⟩)
  | ub => exact .inr (.inr ⟨h, rfl⟩)
  | timeout => exact h.elim

theorem v_answers {n : ℕ} {r : Res (List (List Char))} {d : Option (VVal n F)} (h : Right U r d (fun out v => ∃ w, out = [w] ∧ VShows Text w v)) :
    VAnswers U Text r d := by
  cases d with
  | none => exact h
  | some v =>
    cases r with
    | ok out => obtain ⟨w, rfl, h⟩ := h; exact .inl ⟨w, rfl, h⟩
    | throw => exact h.elim
    | ub => exact .inr ⟨h, rfl⟩
    | timeout => exact h.elim

theorem sat_mono_u {β : Type} {V : Prop} {r : Res β} {P : β → Prop} (h : r.Sat U P) (hv : U → V) : r.Sat V P := by
  cases r with
  | ub => exact hv h
  | _ => exact h

theorem elt_weaken (H : EltRef False O rep) (U : Prop) : EltRef U O rep where
  add ha hb := sat_mono_u (H.add ha hb) False.elim
  sub ha hb := sat_mono_u (H.sub ha hb) False.elim
  mul ha hb := sat_mono_u (H.mul ha hb) False.elim
  div ha hb h := sat_mono_u (H.div ha hb h) False.elim
  eq ha hb := sat_mono_u (H.eq ha hb) False.elim

omit [Field F] in
theorem spec_weaken {R : Type} [Zero R] {rep : α → R → Prop} {Text : List Char → R → Prop} (H : EltSpec False E rep Text) (U : Prop) : EltSpec U E rep Text where
  sub h := sat_mono_u (H.sub h) False.elim
  read h := fun hw ht hr => sat_mono_u (H.read h hw ht hr) False.elim
  print := H.print
  clean := H.clean
  blanks h := fun hw => sat_mono_u (H.blanks h hw) False.elim

theorem pow_weaken {G : ℤ → Prop} {ex : α → Int → Res α} (H : PowRef False G ex rep) (U : Prop) : PowRef U G ex rep := by
  intro a x k ha hk hG
  have := H ha hk hG
  cases e : powF x k with
  | none => rw [e] at this; exact .inl (throws_false.1 this)
  | some y => rw [e] at this; exact sat_mono_u this False.elim

omit [Field F] in
theorem cmod_pow {K : Type} [Field K] {O : CoefOps α} {rep : α → K → Prop} {ord : K → K → Prop} {M : K[X]} [Fact (Irreducible M)]
    (C : CoefRef U O rep ord) : PowRef U (fun k => k ≠ INT_MIN) (CMod.exp O) (CMod.Rep rep M) := by
  intro a x k ha hk hG
  unfold InInt at hk
  unfold INT_MIN at hG
  unfold powF
  by_cases hx : x = 0
  · subst hx
    by_cases hk0 : k ≤ 0
    · rw [if_pos ⟨rfl, hk0⟩]
      rcases hk0.lt_or_eq with h | rfl
      · obtain ⟨j, rfl⟩ : ∃ j : ℕ, k = -(j : ℤ) := ⟨k.natAbs, by omega⟩
        exact CMod.exp_neg_throw C ha (by unfold INT_MAX; omega) (by omega) (.inl rfl)
      · exact CMod.exp_zero_throw C ha
    · rw [if_neg (by tauto)]
      obtain ⟨j, rfl⟩ := Int.eq_ofNat_of_zero_le (by omega : 0 ≤ k)
      have := CMod.exp_nonneg_sat C ha (e := j) (by unfold INT_MAX; omega) (.inl (by omega))
      rw [zpow_natCast]
      exact this
  · rw [if_neg (by tauto)]
    rcases lt_or_ge k 0 with h | h
    · obtain ⟨j, rfl⟩ : ∃ j : ℕ, k = -(j : ℤ) := ⟨k.natAbs, by omega⟩
      have := CMod.exp_neg_sat C ha (e := j) (by unfold INT_MAX; omega) (by omega) hx (mul_inv_cancel₀ hx)
      rw [inv_pow, ← zpow_natCast, ← zpow_neg] at this
      exact this
    · obtain ⟨j, rfl⟩ := Int.eq_ofNat_of_zero_le h
      rw [zpow_natCast]
      exact CMod.exp_nonneg_sat C ha (by unfold INT_MAX; omega) (.inr hx)

theorem read_lit {s : String} {n : Int} (hr : Scan.readInt s.toList = ok n) : intLit s = some n := by
  have hl := intLit_right s
  cases e : intLit s with
  | none => rw [e, hr] at hl; cases throws_false.1 hl
  | some k => rw [e, hr] at hl; rw [← hl.1]

theorem int_min {t : Tree} (hi : U ∨ Exponents t) : ∀ s n, (true, s) ∈ t.lits false → Scan.readInt s.toList = ok n → n = INT_MIN → U := by
  intro s n hs hr hn
  rcases hi with h | h
  · exact h
  · exact absurd (by rw [read_lit hr, hn]) (h s hs)

/-- C98: matrices over any element type that refines a field. -/
theorem C98_matrix (H : EltRef U O rep) (S : EltSpec U E rep Text) (h0 : rep zero 0) (h1 : rep one 1)
    {files : String → Option (List Char)} {ts : List String} {t : Tree} (N : Minus t → NegRef U O rep) (h : Derives matG .Q t ts)
    (hl : MLiterals Text files t) (hi : U ∨ Exponents t) :
    MAnswers U Text (matOp O E files zero one ts) (MDen (MLit Text files) false t) :=
  m_answers (matOp_out H S h0 h1 N h hl (int_min hi))

/-- C98: vectors of one length over any element type that refines a field. -/
theorem C98_vector (H : EltRef U O rep) (S : EltSpec U E rep Text) (h0 : rep zero 0) {n : ℕ} (hn : 0 < n) {ex : α → Int → Res α}
    {G : ℤ → Prop} (hp : PowRef U G ex rep) {lit : String → Option (Fin n → F)} {ts : List String} {t : Tree} (N : Minus t → NegRef U O rep)
    (h : Derives vecG .Q t ts) (hl : VLiterals Text lit t) (hx : ∀ s n, (true, s) ∈ t.lits false → Scan.readInt s.toList = ok n → G n) :
    VAnswers U Text (vecOp O ex E zero ts) (vden lit false t) :=
  v_answers (vecOp_right H S h0 hn hp N h hl hx)

/-- C98, violated: `a + b == c` with vectors `a` and `b` of one length and a longer vector `c` writes out of bounds, whatever the
elements; with a shorter one the answer is 0, and with one of the same length it is right. -/
theorem C98_violated_lengths (H : EltRef False O rep) {n k : ℕ} (hn : 0 < n) {a b c : List α} {x y : Fin n → F} {z : Fin k → F} (ha : VRep rep a x)
    (hb : VRep rep b y) (hc : VRep rep c z) :
    (n < k → vecSumEq O a b c = ub) ∧ (k < n → vecSumEq O a b c = ok (.int 0)) ∧
      (∀ h : k = n, (vecSumEq O a b c).Ok fun r => ∃ m, r = .int m ∧ (m = 1 ∨ m = 0) ∧ (m = 1 ↔ x + y = h ▸ z)) :=
  vecSumEq_out H hn ha hb hc

end General

example : vecSumEq IntMod.cops.tops [⟨1, 5⟩] [⟨2, 5⟩] [⟨3, 5⟩, ⟨0, 5⟩] = ub ∧
    vecSumEq IntMod.cops.tops [⟨1, 5⟩] [⟨2, 5⟩] [⟨3, 5⟩] = ok (.int 1) := by decide +kernel

/-! ### F_p -/

section Fp
variable {p : ℕ} [hp : Fact p.Prime]

/-- A number without sign, for its residue. -/
abbrev ModWord (p : ℕ) (t : List Char) (x : ZMod p) : Prop := ∃ n : ℤ, IntWord t n ∧ InInt n ∧ 0 ≤ n ∧ x = (n : ZMod p)

/-- C98: `fp_mat_op`, for any prime up to 46341. -/
theorem C98_fp_matrix (hb : p ≤ 46341) {files : String → Option (List Char)} {ts : List String} {t : Tree} (h : Derives matG .Q t ts)
    (hl : MLiterals (ModWord p) files t) (hi : Exponents t) :
    MAnswers False (ModWord p) (fpMatOp p files ts) (MDen (MLit (ModWord p) files) false t) := by
  obtain ⟨e0, e1, r0, r1⟩ := fp_zero_one hp.out.two_le hb
  unfold fpMatOp
  rw [e0, ok_bind, e1, ok_bind]
  exact C98_matrix (TM.C42_inst_intmod hp.out.two_le hb).1 (C94_mod hp.out.pos (by omega)) r0 r1 (fun _ => (TM.C42_inst_intmod hp.out.two_le hb).2) h hl (.inr hi)

theorem intmod_pow (hb : p ≤ 46341) : PowRef False (fun k => k ≠ INT_MIN) IntMod.cops.exp (IntMod.Rep p) := by
  intro a x k ha hk hG
  have h2 := hp.out.two_le
  have ea : a = ⟨a.residue, p⟩ := by rw [← ha.1]
  have ex : x = (a.residue : ZMod p) := ha.2.2.2.symm
  have hx : 0 ≤ a.residue ∧ a.residue < p := ⟨ha.2.1, ha.2.2.1⟩
  have hz : x = 0 ↔ a.residue = 0 := by
    rw [ex, ZMod.intCast_zmod_eq_zero_iff_dvd]
    constructor
    · rintro ⟨c, hc⟩
      by_contra h0
      have := Int.le_of_dvd (by omega) ⟨c, hc⟩
      omega
    · intro h; simp [h]
  show Right False (IntMod.exp IntMod.Cache.init a k >>= fun r => ok r.1) _ _
  unfold powF
  rcases lt_trichotomy k 0 with hk0 | rfl | hk0
  · have key := IntMod.C14_exp_neg IntMod.Cache.init IntMod.cacheOk_init p a.residue k (by omega) (by omega) hx hk0 hk hG
    rw [← ea] at key
    by_cases h0 : x = 0
    · rw [if_pos ⟨h0, hk0.le⟩]
      rw [if_neg (by
        rw [hz.1 h0]
        simp
        omega)] at key
      rw [key]
      exact .inl rfl
    · rw [if_neg (by tauto)]
      rw [if_pos (by
        have hp' := Int.isCoprime_iff_gcd_eq_one.1 ((Prime.coprime_iff_not_dvd (Nat.prime_iff_prime_int.1 hp.out)).2 fun hd => h0 (by
          rw [ex, ZMod.intCast_zmod_eq_zero_iff_dvd]; exact hd))
        rw [Int.gcd_comm]; exact hp')] at key
      obtain ⟨y, c', h1, h2', h3, _, h4⟩ := key
      rw [h4]
      show IntMod.Rep p _ (x ^ k)
      have hy : x * (y : ZMod p) = 1 := by
        rw [ex, ← Int.cast_mul]
        have := (ZMod.intCast_eq_intCast_iff' (a.residue * y) 1 p).2 (by rw [h3, Int.emod_eq_of_lt (by omega) (by omega : (1:ℤ) < p)])
        simpa using this
      have e : x ^ k = ((y ^ (-k).toNat : ℤ) : ZMod p) := by
        obtain ⟨j, rfl⟩ : ∃ j : ℕ, k = -(j : ℤ) := ⟨k.natAbs, by omega⟩
        rw [neg_neg, Int.toNat_natCast, Int.cast_pow, zpow_neg, zpow_natCast, ← inv_pow, ← eq_inv_of_mul_eq_one_right hy]
      rw [e]
      exact rep_emod hp.out.pos _
  · have key := IntMod.C14_exp_zero IntMod.Cache.init p a.residue (by omega) hx
    rw [← ea] at key
    rw [key]
    by_cases h0 : x = 0
    · rw [if_pos (hz.1 h0), if_pos ⟨h0, le_refl _⟩]
      exact .inl rfl
    · rw [if_neg fun h => h0 (hz.2 h), if_neg (by tauto)]
      show IntMod.Rep p _ (x ^ (0 : ℤ))
      rw [zpow_zero]
      have := rep_emod hp.out.pos 1
      simpa using this
  · have key := IntMod.C14_exp_pos IntMod.Cache.init p a.residue k (by omega) hx hk0 hk
    rw [← ea] at key
    rw [key, if_neg (by omega)]
    show IntMod.Rep p _ (x ^ k)
    have e : x ^ k = ((a.residue ^ k.toNat : ℤ) : ZMod p) := by
      rw [Int.cast_pow, ← ex, ← zpow_natCast, Int.toNat_of_nonneg hk0.le]
    rw [e]
    exact rep_emod hp.out.pos _

/-- C98: `fp_vec_op`, for any prime up to 46341 and vectors of one length. -/
theorem C98_fp_vector (hb : p ≤ 46341) {n : ℕ} (hn : 0 < n) {lit : String → Option (Fin n → ZMod p)} {ts : List String} {t : Tree}
    (h : Derives vecG .Q t ts) (hl : VLiterals (ModWord p) lit t) (hi : Exponents t) :
    VAnswers False (ModWord p) (fpVecOp p ts) (vden lit false t) := by
  obtain ⟨e0, e1, r0, r1⟩ := fp_zero_one hp.out.two_le hb
  unfold fpVecOp
  rw [e0, ok_bind]
  exact C98_vector (TM.C42_inst_intmod hp.out.two_le hb).1 (C94_mod hp.out.pos (by omega)) r0 hn
    (intmod_pow hb) (fun _ => (TM.C42_inst_intmod hp.out.two_le hb).2) h hl fun s n hs hr e => int_min (.inr hi) s n hs hr e

end Fp

/-! ### Bits -/

section F2

/-- A number of at most 32 bits, with or without sign, for its parity. -/
def BitWord (t : List Char) (x : ZMod 2) : Prop := ∃ n : ℤ, IntWord t n ∧ n.natAbs < 2 ^ 32 ∧ x = (n : ZMod 2)

theorem zmod2_cast (n : ℤ) : (n : ZMod 2) = 0 ↔ n % 2 = 0 := by
  rw [ZMod.intCast_zmod_eq_zero_iff_dvd]
  omega

/-- C98: `bit_t` as an element of a vector or of a matrix. -/
theorem C98_bit (r0 : ℕ) : EltSpec False (bitIO r0) BitT.Rep BitWord where
  sub := fun hz => by
    have := BitT.eltRef.sub hz hz
    rwa [sub_zero] at this
  read := by
    rintro z hz ws t x rest hw ⟨n, ht, hn, rfl⟩ hr
    have h := BText97.C97_bit_read (ht.text (ws := ws) (fun c hc => blank_space (hw c hc)) (blank_dig hr)) hn r0 (z.residue != 0)
    show (ok _ : Res _).Sat _ _
    rw [h]
    refine ⟨?_, rfl⟩
    show (if _ then (1 : BitVec 8) else 0) = if (n : ZMod 2) = 0 then 0#8 else 1#8
    simp only [zmod2_cast]
    rcases Int.emod_two_eq_zero_or_one n with e | e <;> simp [e]
  print := by
    intro a x ha
    refine ⟨_, rfl, if x = 0 then 0 else 1, ?_, by split <;> decide, ?_⟩
    · unfold BitT.Rep at ha
      rw [ha]
      by_cases hx : x = 0
      · simp only [hx, if_true]
        exact (by decide +kernel : BText.showBit (0#8 != 0) = showInt 0) ▸ showInt_word 0
      · simp only [hx, if_false]
        exact (by decide +kernel : BText.showBit (1#8 != 0) = showInt 1) ▸ showInt_word 1
    · have hx : x = 0 ∨ x = 1 := by clear ha; revert x; decide
      rcases hx with rfl | rfl <;> simp
  clean := fun ⟨_, h, _⟩ => h.clean
  blanks := by
    intro z hz ws hw
    show (ok _ : Res _).Sat _ _
    have : ws.dropWhile blank = [] := by
      rw [List.dropWhile_eq_nil_iff]; exact hw
    show (BText.readBit r0 _ ws).2.fail = true
    unfold BText.readBit
    rw [this]

theorem bit_pow : PowRef False (fun k => 0 < k) BitT.exp BitT.Rep := by
  intro a x k ha _ hk
  have h := LA.C84_exp_partial ha (e := k) (.inr hk)
  unfold powF
  rw [if_neg (by omega)]
  exact h.sat (U := False)

/-- C98: `f2_mat_op`, whatever is in the uninitialised variable of `operator>>`. -/
theorem C98_f2_matrix (r0 : ℕ) {files : String → Option (List Char)} {ts : List String} {t : Tree} (h : Derives matG .Q t ts)
    (hl : MLiterals BitWord files t) (hi : Exponents t) :
    MAnswers False BitWord (f2MatOp r0 files ts) (MDen (MLit BitWord files) false t) := by
  have r0' := BitT.rep_ofInt 0
  have r1' := BitT.rep_ofInt 1
  simp only [Int.cast_zero, Int.cast_one] at r0' r1'
  exact C98_matrix BitT.eltRef (C98_bit r0) r0' r1' (fun _ => LA.bit_neg) h hl (.inr hi)

/-- C98: `f2_vec_op`, where the exponents are positive.  Missing: other exponents (`C98_violated_bit_power`). -/
theorem C98_f2_vector_partial (r0 : ℕ) {n : ℕ} (hn : 0 < n) {lit : String → Option (Fin n → ZMod 2)} {ts : List String} {t : Tree}
    (h : Derives vecG .Q t ts) (hl : VLiterals BitWord lit t) (hi : ∀ s k, (true, s) ∈ t.lits false → intLit s = some k → 0 < k) :
    VAnswers False BitWord (f2VecOp r0 ts) (vden lit false t) := by
  have r0' := BitT.rep_ofInt 0
  simp only [Int.cast_zero] at r0'
  exact C98_vector BitT.eltRef (C98_bit r0) r0' hn bit_pow (fun _ => LA.bit_neg) h hl fun s k hs hr => hi s k hs (read_lit hr)

/-- C98, violated: a power of a vector is printed as the vector, whatever the exponent; also where an entry is zero and the
exponent is not positive, so that there is no such power (`vden` is `none`). -/
theorem C98_violated_bit_power (r0 : ℕ) {n : ℕ} (hn : 0 < n) {s e : String} {x : Fin n → ZMod 2} {k : ℤ} (hs : VLit BitWord s x)
    (he : intLit e = some k) {ts : List String} (h : Derives vecG .Q (.bin .exp (.lit s) (.lit e)) ts) :
    (∃ w, f2VecOp r0 ts = ok [w] ∧ VShows BitWord w (.vec x)) ∧
    (k ≤ 0 → (∃ i, x i = 0) → ∀ lit, lit s = some x → vden lit false (.bin .exp (.lit s) (.lit e)) = none) := by
  constructor
  · have r0' := BitT.rep_ofInt 0
    simp only [Int.cast_zero] at r0'
    have hsc := vecScan_right (C98_bit r0) r0' (.inl ⟨x, rfl, hs⟩)
    obtain ⟨v, hv, hr⟩ := sat_false.1 (show Sat False _ _ from hsc)
    have hri : Scan.readInt e.toList = ok k := by
      have := intLit_right e
      rw [he] at this
      obtain ⟨m, h1, h2, _⟩ := sat_false.1 this
      rw [h1, h2]
    have hexp : (TVec.exp BitT.tops BitT.exp v k).Sat False (fun r => VRep BitT.Rep r x) :=
      vunary_sat (g := id) (op := fun a => BitT.exp a k) (fun h => h) hn hr
    obtain ⟨u, hu, hur⟩ := sat_false.1 hexp
    obtain ⟨w, hw, hws⟩ := showVAtom_ok (C98_bit r0) hn (a := .mat u) (v := .vec x) hur
    refine ⟨w, ?_, hws⟩
    unfold f2VecOp vecOp
    rw [C90_vector _ _ _ h]
    have e1 : eval (vector (vecOps BitT.tops BitT.exp) (vecScan (bitIO r0) (BitT.ofInt 0)) (fun s => Scan.readInt s.toList)) false (.bin .exp (.lit s) (.lit e))
        = ok (MAtom.mat (α := BitT) u) := by
      have hv' : (if '[' ∈ s.toList then do let a ← vecScan (bitIO r0) (BitT.ofInt 0) s; ok (MAtom.mat (α := BitT) a) else .throw) = ok (MAtom.mat v) := by
        split at hv
        · rw [if_pos ‹_›, hv]; rfl
        · cases hv
      show (if '[' ∈ s.toList then _ else _) >>= _ = _
      rw [hv', ok_bind]
      show (Scan.readInt e.toList >>= fun n => ok (MAtom.int n)) >>= _ = _
      rw [hri, ok_bind, ok_bind]
      show (TVec.exp BitT.tops BitT.exp v k >>= fun c => ok (MAtom.mat c)) = _
      rw [hu]; rfl
    rw [e1, ok_bind, ok_bind]
    simp only [each, hw, ok_bind]
  · rintro hk ⟨i, hi⟩ lit hl
    show (lit s).map VVal.vec >>= _ = _
    rw [hl]
    show (intLit e).map VVal.int >>= _ = _
    rw [he]
    exact if_pos ⟨i, hi, hk⟩

example : f2VecOp 7 ["[0 1]", "^", "-1"] = ok ["0 1\n".toList] := by decide +kernel

end F2

/-! ### F_2^n -/

section F2n
variable {m : (ZMod 2)[X]} [hm : Fact (Irreducible m)]

theorem f2pm_zero_one {mm : F2P} (hc : Canon mm) (hmm : toPoly mm = m) :
    ∃ z o, F2Mod.mk' (F2P.ofInt 0) mm = ok z ∧ F2Mod.mk' (F2P.ofInt 1) mm = ok o ∧ F2Mod.Rep m z 0 ∧ F2Mod.Rep m o 1 := by
  obtain ⟨z, hz, hz', _⟩ := F2Mod.mk'_ok (F2Mod.canon_ofInt 0).good hc hmm hm.out.ne_zero
  obtain ⟨o, ho, ho', _⟩ := F2Mod.mk'_ok (F2Mod.canon_ofInt 1).good hc hmm hm.out.ne_zero
  rw [show toPoly (F2P.ofInt 0) = 0 from toPoly_zero, map_zero] at hz'
  rw [show toPoly (F2P.ofInt 1) = 1 from toPoly_one, map_one] at ho'
  exact ⟨z, o, hz, ho, hz', ho'⟩

/-- C98: `f2_pm_mat_op`, for any irreducible modulus. -/
theorem C98_f2n_matrix {mm : F2P} (hc : Canon mm) (hmm : toPoly mm = m) {files : String → Option (List Char)} {ts : List String} {t : Tree}
    (h : Derives matG .Q t ts) (hl : MLiterals (HexRep m) files t) (hi : Exponents t) :
    MAnswers False (HexRep m) (f2PmMatOp mm files ts) (MDen (MLit (HexRep m) files) false t) := by
  obtain ⟨z, o, hz, ho, rz, ro⟩ := f2pm_zero_one hc hmm
  unfold f2PmMatOp
  rw [hz, ok_bind, ho, ok_bind]
  have I := TM.C42_inst_f2_polymod hm.out.ne_zero
  exact C98_matrix I.1 (C94_f2mod hm.out.natDegree_pos) rz ro (fun _ => I.2) h hl (.inr hi)

theorem f2mod_pow : PowRef False (fun k => k ≠ INT_MIN) F2Mod.exp (F2Mod.Rep m) := by
  intro a x k ha hk hG
  unfold InInt at hk
  unfold INT_MIN at hG
  have key : x ≠ 0 → k < 0 → (F2Mod.exp a k).Ok fun r => F2Mod.Rep m r (x ^ k) := by
    intro hx hk0
    obtain ⟨j, rfl⟩ : ∃ j : ℕ, k = -(j : ℤ) := ⟨k.natAbs, by omega⟩
    have := F2Mod.exp_neg_ok ha (e := j) (by unfold INT_MAX; omega) (by omega) hx (mul_inv_cancel₀ hx)
    rwa [inv_pow, ← zpow_natCast, ← zpow_neg] at this
  unfold powF
  by_cases hx : x = 0
  · subst hx
    by_cases hk0 : k ≤ 0
    · rw [if_pos ⟨rfl, hk0⟩]
      refine .inl ?_
      rcases hk0.lt_or_eq with h | rfl
      · obtain ⟨j, rfl⟩ : ∃ j : ℕ, k = -(j : ℤ) := ⟨k.natAbs, by omega⟩
        exact F2Mod.exp_neg_throw ha (by unfold INT_MAX; omega) (by omega) (.inl rfl)
      · exact F2Mod.exp_zero_throw ha
    · rw [if_neg (by tauto)]
      obtain ⟨j, rfl⟩ := Int.eq_ofNat_of_zero_le (by omega : 0 ≤ k)
      have := F2Mod.exp_ok ha (e := j) (by unfold INT_MAX; omega) (.inl (by omega))
      rw [zpow_natCast]
      exact this.sat (U := False)
  · rw [if_neg (by tauto)]
    rcases lt_or_ge k 0 with h | h
    · exact (key hx h).sat (U := False)
    · obtain ⟨j, rfl⟩ := Int.eq_ofNat_of_zero_le h
      rw [zpow_natCast]
      exact (F2Mod.exp_ok ha (by unfold INT_MAX; omega) (.inr hx)).sat (U := False)

/-- C98: `f2_pm_vec_op`, for any irreducible modulus and vectors of one length. -/
theorem C98_f2n_vector {mm : F2P} (hc : Canon mm) (hmm : toPoly mm = m) {n : ℕ} (hn : 0 < n) {lit : String → Option (Fin n → AdjoinRoot m)}
    {ts : List String} {t : Tree} (h : Derives vecG .Q t ts) (hl : VLiterals (HexRep m) lit t) (hi : Exponents t) :
    VAnswers False (HexRep m) (f2PmVecOp mm ts) (vden lit false t) := by
  obtain ⟨z, o, hz, ho, rz, ro⟩ := f2pm_zero_one hc hmm
  unfold f2PmVecOp
  rw [hz, ok_bind]
  have I := TM.C42_inst_f2_polymod hm.out.ne_zero
  exact C98_vector I.1 (C94_f2mod hm.out.natDegree_pos) rz hn f2mod_pow (fun _ => I.2) h hl fun s n hs hr e => int_min (.inr hi) s n hs hr e

end F2n

/-! ### F_p^n -/

section Fpn
variable {p : ℕ} [hp : Fact p.Prime] {M : (ZMod p)[X]} [hM : Fact (Irreducible M)]

theorem fppm_psub (hb : p ≤ 46341) {mm : CPoly IntMod} (hmm : PRep (IntMod.Rep p) mm M) :
    ∃ z o, fpPmPsub 0 mm = ok z ∧ fpPmPsub 1 mm = ok o ∧ CMod.Rep (IntMod.Rep p) M z 0 ∧ CMod.Rep (IntMod.Rep p) M o 1 := by
  have C := IntMod.cops_ref hp.out.two_le hb
  have key : ∀ v : Int, InInt v → (fpPmPsub v mm).Ok fun r => CMod.Rep (IntMod.Rep p) M r (AdjoinRoot.mk M (Polynomial.C (v : ZMod p))) := by
    intro v hv
    unfold fpPmPsub
    refine sat_false.1 ?_
    exact (CPoly.psub_sat C hmm hv).bind fun r hr => CMod.mk'_sat C hr hmm hM.out.ne_zero
  obtain ⟨z, hz, hz'⟩ := key 0 (by unfold InInt; simp)
  obtain ⟨o, ho, ho'⟩ := key 1 (by unfold InInt; simp)
  exact ⟨z, o, hz, ho, by simpa using hz', by simpa using ho'⟩

/-- C98: `fp_pm_mat_op`, for any irreducible modulus over F_p, without unary minus and `kerbas`.  With them the behaviour may be
undefined instead. -/
theorem C98_fpn_matrix_partial (hb : p ≤ 46341) {mm : CPoly IntMod} (hmm : PRep (IntMod.Rep p) mm M) {files : String → Option (List Char)}
    {ts : List String} {t : Tree} (h : Derives matG .Q t ts) (hl : MLiterals (FpRep M) files t) :
    (¬ Minus t → Exponents t → MAnswers False (FpRep M) (fpPmMatOp mm files ts) (MDen (MLit (FpRep M) files) false t)) ∧
    MAnswers True (FpRep M) (fpPmMatOp mm files ts) (MDen (MLit (FpRep M) files) false t) := by
  obtain ⟨z, o, hz, ho, rz, ro⟩ := fppm_psub hb hmm
  unfold fpPmMatOp
  rw [hz, ok_bind, ho, ok_bind]
  have I := TM.C42_inst_fp_polymod hb hM.out.ne_zero
  exact ⟨fun hN hi => C98_matrix I.1 (C94_fpmod hb) rz ro (fun h => absurd h hN) h hl (.inr hi),
    C98_matrix (elt_weaken I.1 True) (spec_weaken (C94_fpmod hb) True) rz ro (fun _ => I.2) h hl (.inl trivial)⟩

theorem fpmod_pow (hb : p ≤ 46341) : PowRef False (fun k => k ≠ INT_MIN) (CMod.exp IntMod.cops) (CMod.Rep (IntMod.Rep p) M) :=
  cmod_pow (IntMod.cops_ref hp.out.two_le hb)

/-- C98: `fp_pm_vec_op`, for any irreducible modulus and vectors of one length, without unary minus.  With it the behaviour may be
undefined instead. -/
theorem C98_fpn_vector_partial (hb : p ≤ 46341) {mm : CPoly IntMod} (hmm : PRep (IntMod.Rep p) mm M) {n : ℕ} (hn : 0 < n)
    {lit : String → Option (Fin n → AdjoinRoot M)} {ts : List String} {t : Tree} (h : Derives vecG .Q t ts) (hl : VLiterals (FpRep M) lit t)
    (hi : Exponents t) :
    (¬ Minus t → VAnswers False (FpRep M) (fpPmVecOp mm ts) (vden lit false t)) ∧ VAnswers True (FpRep M) (fpPmVecOp mm ts) (vden lit false t) := by
  obtain ⟨z, o, hz, ho, rz, ro⟩ := fppm_psub hb hmm
  unfold fpPmVecOp
  rw [hz, ok_bind]
  have I := TM.C42_inst_fp_polymod hb hM.out.ne_zero
  have hx := fun s n (hs : (true, s) ∈ t.lits false) hr (e : n = INT_MIN) => int_min (U := False) (.inr hi) s n hs hr e
  exact ⟨fun hN => C98_vector I.1 (C94_fpmod hb) rz hn (fpmod_pow hb) (fun h => absurd h hN) h hl hx,
    C98_vector (elt_weaken I.1 True) (spec_weaken (C94_fpmod hb) True) rz hn (pow_weaken (fpmod_pow hb) True) (fun _ => I.2) h hl hx⟩

end Fpn

/-! ### Rationals -/

theorem rat_zero : IntRat.Rep ⟨0, 1⟩ 0 := by
  obtain ⟨z, hz, rz⟩ := IntRat.ofInt_ok (n := 0) (by decide) (by decide)
  have : IntRat.ofInt 0 = ok ⟨0, 1⟩ := by decide +kernel
  rw [this] at hz
  cases hz
  simpa using rz

theorem rat_one : IntRat.Rep ⟨1, 1⟩ 1 := by
  obtain ⟨z, hz, rz⟩ := IntRat.ofInt_ok (n := 1) (by decide) (by decide)
  have : IntRat.ofInt 1 = ok ⟨1, 1⟩ := by decide +kernel
  rw [this] at hz
  cases hz
  simpa using rz

/-- C98: `q_mat_op`, unless the arithmetic overflows. -/
theorem C98_q_matrix_partial {files : String → Option (List Char)} {ts : List String} {t : Tree} (h : Derives matG .Q t ts)
    (hl : MLiterals RatWord files t) : MAnswers True RatWord (qMatOp files ts) (MDen (MLit RatWord files) false t) :=
  C98_matrix TM.C42_inst_intrat.1 (spec_weaken C94_rat True) rat_zero
    rat_one (fun _ => TM.C42_inst_intrat.2) h hl (.inl trivial)

theorem rat_pow : PowRef True (fun _ => True) IntRat.exp IntRat.Rep := by
  intro a x e ra he _
  obtain ⟨z, hz, rz⟩ := IntRat.ofInt_ok (n := 0) (by decide) (by decide)
  obtain ⟨o, ho, ro⟩ := IntRat.ofInt_ok (n := 1) (by decide) (by decide)
  have hpow : ∀ {b : IntRat} {y : ℚ} {n : ℕ}, n < 2 ^ 32 → IntRat.Rep b y →
      (sqMulLoop IntRat.mul 32 o b n).Sat True (fun r => IntRat.Rep r (y ^ n)) := by
    intro b y n hn hb
    refine (sqMulLoop_sat (rep := IntRat.Rep) (fun h1 h2 => IntRat.mul_sat h1 h2) 32 o b y _ n hn ro hb).mono fun r hr => ?_
    simpa using hr
  unfold InInt at he
  unfold powF IntRat.exp
  rw [hz, ok_bind, ho, ok_bind, IntRat.eq_ok ra rz]
  by_cases h0 : e = 0
  · subst h0
    rw [if_pos (rfl : (0 : ℤ) = 0), ok_bind]
    by_cases hx : x = 0
    · rw [if_pos (by simp [hx]), if_pos ⟨hx, le_refl _⟩]
      exact .inl rfl
    · rw [if_neg (by simp [hx]), if_neg (by tauto), zpow_zero]
      show IntRat.Rep o 1
      simpa using ro
  · rw [if_neg h0]
    by_cases hneg : e < 0
    · rw [if_pos hneg, ok_bind]
      by_cases hx : x = 0
      · rw [if_pos (by simp [hx]), if_pos ⟨hx, hneg.le⟩]
        exact .inl rfl
      · rw [if_neg (by simp [hx]), if_neg (by tauto)]
        by_cases hm : e = INT_MIN
        · subst hm; trivial
        · unfold INT_MIN at hm
          unfold ineg
          rw [chk_ok (by unfold InInt; omega), ok_bind, if_neg (by omega)]
          refine Sat.bind (IntRat.div_sat ro ra hx) fun xp hxp => ?_
          refine Sat.mono (hpow (by omega) hxp) fun r hr => ?_
          have e1 : ((1 : Int) / x) ^ (-e).toNat = x ^ e := by
            rw [Int.cast_one, one_div, inv_pow, ← zpow_natCast, Int.toNat_of_nonneg (by omega), ← zpow_neg, neg_neg]
          rwa [e1] at hr
    · rw [if_neg hneg, if_neg (by omega)]
      refine Sat.mono (hpow (by omega) ra) fun r hr => ?_
      rwa [← zpow_natCast, Int.toNat_of_nonneg (by omega)] at hr

/-- C98: `q_vec_op`, unless the arithmetic overflows. -/
theorem C98_q_vector_partial {n : ℕ} (hn : 0 < n) {lit : String → Option (Fin n → ℚ)} {ts : List String} {t : Tree} (h : Derives vecG .Q t ts)
    (hl : VLiterals RatWord lit t) : VAnswers True RatWord (qVecOp ts) (vden lit false t) :=
  C98_vector TM.C42_inst_intrat.1 (spec_weaken C94_rat True) rat_zero hn rat_pow
    (fun _ => TM.C42_inst_intrat.2) h hl fun _ _ _ _ => trivial

/-! ### Examples -/

section Examples

private def noFiles : String → Option (List Char) := fun _ => none

example : fpMatOp 7 noFiles ["inv", "[[1 2][3 4]]"] = ok ["5 1\n5 3\n".toList] := by decide +kernel
example : fpMatOp 7 noFiles ["kerbas", "[[1 2][3 6]]"] = ok ["5 1\n".toList] := by decide +kernel
example : fpMatOp 7 noFiles ["[[1 2][3 4]]", "*", "[[1 2 3]]"] = .throw := by decide +kernel
example : fpMatOp 7 (fun s => if s = "A" then some "1 2\n3 4\n".toList else none) ["det", "A", "^", "-2"] = ok ["2\n".toList] := by decide +kernel
example : f2MatOp 3 noFiles ["rechr", "[[1 2 3][1 1 1]]"] = ok ["0 1 0\n1 0 1\n".toList] := by decide +kernel
example : f2PmMatOp [0x13] noFiles ["inv", "[[1 2][3 a]]"] = ok ["8 7\nd a\n".toList] := by decide +kernel
example : qMatOp noFiles ["inv", "[[1 1/2][1/3 1/4]]"] = ok ["3 -6\n-4 12\n".toList] := by decide +kernel
example : fpVecOp 7 ["[1 2 3]", "^", "-1", "*", "[1 1 2]"] = ok ["1 4 3\n".toList] := by decide +kernel
example : qVecOp ["[1 2 3/4]", "^", "-1", "*", "[1 1 2]"] = ok ["1 1/2 8/3\n".toList] := by decide +kernel
example : f2PmVecOp [0x13] ["[1 2]", "^", "-1"] = ok ["1 9\n".toList] := by decide +kernel
example : fpPmVecOp ⟨2, [⟨1, 3⟩, ⟨0, 3⟩, ⟨1, 3⟩]⟩ ["[10 11]", "^", "-1"] = ok ["20 12\n".toList] := by decide +kernel
example : fpPmVecOp ⟨2, [⟨1, 3⟩, ⟨0, 3⟩, ⟨1, 3⟩]⟩ ["-", "[10 11]"] = ub := by decide +kernel
example : fpPmMatOp ⟨2, [⟨1, 3⟩, ⟨0, 3⟩, ⟨1, 3⟩]⟩ noFiles ["inv", "[[10 11][1 1]]"] = ok ["02 11\n01 20\n".toList] := by decide +kernel

private theorem word (c : Char) (n : ℕ) (h : showInt n = [c] := by decide +kernel) (hn : n < 10 := by decide) : ModWord 7 [c] (n : ZMod 7) :=
  ⟨n, h ▸ showInt_word n, by unfold InInt; omega, by omega, by simp⟩

local instance : Fact (Nat.Prime 7) := ⟨by norm_num⟩

-- the hypotheses hold for `inv [[1 2][3 4]]`
example : MAnswers False (ModWord 7) (fpMatOp 7 noFiles ["inv", "[[1 2][3 4]]"])
    (MDen (MLit (ModWord 7) noFiles) false (.un .inv (.lit "[[1 2][3 4]]"))) := by
  refine C98_fp_matrix (p := 7) (by norm_num) (.ofC (.ofE (.ofT (.ofF (.pre (by decide) (.ofP (.lit (by unfold Gram.IsLit; decide +kernel)))))))) ?_ ?_
  · intro s hs
    obtain rfl : s = "[[1 2][3 4]]" := by simpa [Tree.lits] using hs
    refine ⟨some (.mat !![((1 : ℕ) : ZMod 7), ((2 : ℕ) : ZMod 7); ((3 : ℕ) : ZMod 7), ((4 : ℕ) : ZMod 7)]),
      .rows (pre := []) (bl := []) (post := []) (us := [("1 2".toList, []), ("3 4".toList, [])]) (by decide +kernel) (by decide) (by decide) (by decide)
      ?_ (by decide) (by decide)⟩
    refine .cons ⟨?_, by simp, by simp⟩ (.cons ⟨?_, by simp, by simp⟩ .nil)
    · exact .cons (ws := []) (t := ['1']) (cs := " 2".toList) (by simp) (word '1' 1) (.one (ws := [' ']) (t := ['2']) (by decide) (word '2' 2)) (by decide)
    · exact .cons (ws := []) (t := ['3']) (cs := " 4".toList) (by simp) (word '3' 3) (.one (ws := [' ']) (t := ['4']) (by decide) (word '4' 4)) (by decide)
  · intro s hs
    simp [Tree.lits] at hs

end Examples

end Expr98
end Spffl.Props
