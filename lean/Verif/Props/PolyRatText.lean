import Verif.Proof.PolyRatText
import Verif.Props.PolyRat
import Verif.Props.ExprMatDet

/-!
# C99: the text of quotients of polynomials, and their calculators
-/

namespace Spffl.Props
namespace Expr99
open Res F2P CPoly Polynomial Matrix Spffl.Expr Spffl.VText Spffl.Scan Spffl.PText PText93 VText94 Expr90 Expr96 Expr98 PRat

/-- The decision procedure that `CRat.norm_iff` is stated with. -/
@[reducible] noncomputable def cdec {K : Type} [Field K] : DecidableEq K[X] :=
  fun a b => @Polynomial.instDecidableEq K _ (fun a b => Classical.propDecidable (a = b)) a b

theorem isLit_of_head {s : String} {P : Char → Bool} {c : Char} {r : List Char} (hs : s.toList = c :: r) (hc : P c = true)
    (hk : ∀ k ∈ scalarKeys, ∀ c ∈ k.toList.head?, P c = false) : scalarG.IsLit s := by
  have h : s ∉ scalarKeys := by
    intro h
    have := hk s h c (by rw [hs]; simp)
    rw [hc] at this; cases this
  simp only [scalarKeys, List.mem_cons, List.not_mem_nil, or_false, not_or] at h
  simp [Gram.IsLit, scalarG, addTable, h]

/-! ### Quotients of polynomials over F_2 -/

section F2

theorem f2_none {ws rest : List Char} (hw : ∀ c ∈ ws, blank c = true) (hr : ∀ c ∈ rest.head?, (hexVal c).isSome = false ∧ blank c = false) :
    F2P.read (ws ++ rest) = ok (F2P.zero, true, rest) := by
  unfold F2P.read
  have : (ws ++ rest).dropWhile isBlank = rest := by
    rw [List.dropWhile_append_of_pos (show ∀ c ∈ ws, isBlank c = true from hw)]
    cases rest with
    | nil => rfl
    | cons c r => exact List.dropWhile_cons_of_neg (by have := (hr c (by simp)).2; simpa [blank, isBlank] using this)
  rw [this]
  cases rest with
  | nil => rfl
  | cons c r =>
    have := (hr c (by simp)).1
    cases h : hexVal c with
    | none => simp [F2P.readLoop, h]
    | some d => rw [h] at this; cases this

theorem stop_hex {rest : List Char} (h : ∀ c ∈ rest.head?, blank c = true ∨ c = '/') : ∀ c ∈ rest.head?, hexVal c = none := by
  intro c hc
  rcases h c hc with h | rfl
  · exact blank_hex (rest := [c]) (by simpa using h) c (by simp)
  · decide

theorem f2_isOne {a : F2P} (ha : Canon a) : (F2P.eqInt a 1).Ok fun r => r = true ↔ toPoly a = 1 := by
  refine ⟨_, eqInt_ok ha.ne_nil 1, ?_⟩
  simp

theorem f2_text : TextRef F2P.rtext F2P.PRep HexWord (fun c => (hexVal c).isSome) where
  read := by
    rintro z f0 - ws t f rest hw ⟨h1, h2, h3⟩ hr
    obtain ⟨⟨r, b, s⟩, h, h4, h5, h6, h7⟩ := F2P.read_ok hw h1 h2 (rest := rest) (fun c hc => stop_hex hr c hc)
    dsimp only at h4 h5 h6 h7
    subst h6 h7
    show (F2P.read _ >>= fun r => ok (r.1, _)).Ok _
    rw [h, ok_bind]
    exact ⟨_, rfl, ⟨h5, nval_inj (h4.trans h3.symm)⟩, rfl⟩
  none := by
    rintro z f0 - ws rest hw hr
    show (F2P.read _ >>= fun r => ok (r.1, _)).Ok _
    rw [f2_none hw hr, ok_bind]
    exact ⟨_, rfl, .inr ⟨canon_zero, toPoly_zero⟩, rfl⟩
  print := C94_f2.print
  clean := C94_f2.clean
  isOne := by
    rintro a f ⟨ha, rfl⟩
    exact f2_isOne ha

theorem f2_rep : PRat.Rep F2P.PRep = F2Rat.Rep := by
  funext a f
  exact propext F2Rat.rep_iff

/-- C99: quotients over F_2 as elements of vectors and matrices: a text `n` or `n/d`, with `d` not zero, is read as the quotient in
lowest terms, and what is printed is such a text. -/
theorem C99_f2_elt : EltSpec False (PRat.io F2P.rops F2P.rtext) F2Rat.Rep (QText HexWord) := by
  rw [← f2_rep]
  exact io_spec F2P.ratRef f2_text

/-- C99: printing and reading gives an object of the same value, also within a longer text, if a blank follows. -/
theorem C99_f2_round_trip {a z : PRat F2P} {x y : RatFunc (ZMod 2)} (ha : F2Rat.Rep a x) (hz : F2Rat.Rep z y) {rest : List Char}
    (hr : ∀ c ∈ rest.head?, blank c = true) : ∃ w, PRat.shown F2P.rtext a = ok w ∧
      (PRat.extract F2P.rops F2P.rtext z (w ++ rest)).Ok fun r => F2Rat.Rep r.1 x ∧ r.2 = ⟨rest, rest.isEmpty, false⟩ := by
  obtain ⟨w, h1, h2⟩ := C99_f2_elt.print ha
  refine ⟨w, h1, ?_⟩
  have := extract_ok F2P.ratRef f2_text (F2Rat.rep_iff.mpr hz) (ws := []) (by simp) h2 hr
  exact this.mono fun r hr => ⟨F2Rat.rep_iff.mp hr.1, hr.2⟩

/-- C99: a denominator that is zero throws. -/
theorem C99_f2_zero_denominator {z : PRat F2P} {y : RatFunc (ZMod 2)} (hz : F2Rat.Rep z y) {ws u v rest : List Char} {n : (ZMod 2)[X]}
    (hw : ∀ c ∈ ws, blank c = true) (hu : HexWord u n) (hv : HexWord v 0) (hr : ∀ c ∈ rest.head?, blank c = true) :
    PRat.extract F2P.rops F2P.rtext z (ws ++ (u ++ '/' :: v) ++ rest) = .throw :=
  extract_throw F2P.ratRef f2_text (F2Rat.rep_iff.mpr hz) hw hu hv hr

/-- C99: the reader for general streams: texts of quotients are read as such. -/
theorem C99_f2_stream {z : PRat F2P} {x y : RatFunc (ZMod 2)} (hz : F2Rat.Rep z y) {ws t rest : List Char} (hw : ∀ c ∈ ws, blank c = true)
    (ht : QText HexWord t x) (hr : ∀ c ∈ rest.head?, blank c = true) :
    (PRat.extractS F2P.rops F2P.rtext z (ws ++ t ++ rest)).Ok fun r =>
      F2Rat.Rep r.1 x ∧ r.2.cs = rest ∧ r.2.fail = false ∧ (r.2.eof = true → rest = []) :=
  (extractS_ok F2P.ratRef f2_text (F2Rat.rep_iff.mpr hz) hw ht hr).mono fun r hr => ⟨F2Rat.rep_iff.mp hr.1, hr.2⟩

/-- C99, violated: reading from a general stream does not fail at its end, so a loop that reads quotients until that fails never ends. -/
theorem C99_violated_f2_stream_end {z : PRat F2P} (hz : F2Rat.Rep z 0) {ws : List Char} (hw : ∀ c ∈ ws, blank c = true) :
    (PRat.extractS F2P.rops F2P.rtext z ws).Ok fun r => F2Rat.Rep r.1 0 ∧ r.2 = ⟨[], false, false⟩ := by
  have := extractS_none F2P.ratRef f2_text (F2Rat.rep_iff.mpr hz) (rest := []) hw (by simp)
  rw [List.append_nil] at this
  exact this.mono fun r hr => ⟨F2Rat.rep_iff.mp hr.1, hr.2⟩

example : PRat.extractS F2P.rops F2P.rtext ⟨[0], [1]⟩ " 5/6 1".toList = ok (⟨[3], [2]⟩, ⟨" 1".toList, false, false⟩) ∧
    PRat.extractS F2P.rops F2P.rtext ⟨[0], [1]⟩ "\n".toList = ok (⟨[0], [1]⟩, ⟨[], false, false⟩) := by decide +kernel

theorem f2_zero_one' : (f2Rat 0).Ok (fun z => F2Rat.Rep z 0) ∧ (f2Rat 1).Ok fun z => F2Rat.Rep z 1 := by
  have h0 := F2Rat.C75_of_poly (F2Mod.canon_ofInt 0)
  have h1 := F2Rat.C75_of_poly (F2Mod.canon_ofInt 1)
  rw [show toPoly (F2P.ofInt 0) = 0 from toPoly_zero, map_zero] at h0
  rw [show toPoly (F2P.ofInt 1) = 1 from toPoly_one, map_one] at h1
  exact ⟨h0, h1⟩

/-- C99: `f2_pr_op` prints the value of the expression in the field of fractions; it throws where the expression has none. -/
theorem C99_f2 {lit : String → Option (RatFunc (ZMod 2))} {t : Tree} {ts : List String} (hd : Derives scalarG .Q t ts)
    (hv : Literals (QText HexWord) lit t) (hi : Exponents t) :
    Answers False (QText HexWord) (f2PrOp ts) (denSQ (fieldSem _) lit intLit (fracOrd fun x y => nval x < nval y) t) := by
  obtain ⟨⟨z, hz, rz⟩, o, ho, ro⟩ := f2_zero_one'
  unfold f2PrOp
  rw [hz, ok_bind, ho, ok_bind]
  refine answers (rref F2P.ratRef (ng := PRat.neg F2P.rops) fun h => ?_) (io_spec F2P.ratRef f2_text) (F2Rat.rep_iff.mpr rz)
    (F2Rat.rep_iff.mpr ro) hd hv (.inr hi) (.inr rfl)
  exact ((F2Rat.C75_arith (F2Rat.rep_iff.mp h) (F2Rat.rep_iff.mp h)).2.2.2.1.mono fun r hr => F2Rat.rep_iff.mpr hr).sat

example : f2PrOp ["5/6", "+", "1/4"] = ok ["7/4".toList] ∧ f2PrOp ["-", "(", "1/2", ")", "^", "-2", "*", "3"] = ok ["c".toList] := by decide +kernel
example : f2PrOp ["1", "/", "(", "3/5", "-", "1/3", ")"] = .throw ∧ f2PrOp ["1/2", "==", "3/6"] = ok [['1']] := by decide +kernel

/-- C99: `f2_pr_mat_op`: what is printed is a value of the expression. -/
theorem C99_f2_matrix {files : String → Option (List Char)} {ts : List String} {t : Tree} (h : Derives matG .Q t ts)
    (hl : MLiterals (QText HexWord) files t) (hi : Exponents t) :
    MAnswers False (QText HexWord) (f2PrMatOp files ts) (MDen (MLit (QText HexWord) files) false t) := by
  obtain ⟨⟨z, hz, rz⟩, o, ho, ro⟩ := f2_zero_one'
  unfold f2PrMatOp
  rw [hz, ok_bind, ho, ok_bind]
  refine C98_matrix (eltRef F2P.ratRef _) (io_spec F2P.ratRef f2_text) (F2Rat.rep_iff.mpr rz) (F2Rat.rep_iff.mpr ro) (fun _ => ⟨fun h => ?_⟩) h hl (.inr hi)
  exact ((F2Rat.C75_arith (F2Rat.rep_iff.mp h) (F2Rat.rep_iff.mp h)).2.2.2.1.mono fun r hr => F2Rat.rep_iff.mpr hr).sat

example : f2PrMatOp (fun s => if s = "a" then some "1/2 1\n3 1/3\n".toList else none) ["a", "*", "a"] =
    ok ["d/4 1/6\n1/2 e/5\n".toList] := by decide +kernel

/-- C99: without `kerbas`, `rr` and `rrnz` it is the only value. -/
theorem C99_f2_value {files : String → Option (List Char)} {ts : List String} {t : Tree} (h : Derives matG .Q t ts)
    (hl : MLiterals (QText HexWord) files t) (hi : Exponents t) (ht : Fixed t) :
    MRight False (QText HexWord) (f2PrMatOp files ts) (MDen (MLit (QText HexWord) files) false t) := by
  obtain ⟨⟨z, hz, rz⟩, _⟩ := f2_zero_one'
  exact m_right (C98_value_unique C99_f2_elt rz (fun h h' => h.val.trans h'.val.symm) ht) (C99_f2_matrix h hl hi)

/-- C99, violated: a literal that does not start with a hexadecimal digit is not refused; it counts as zero. -/
theorem C99_violated_f2_garbage {s : String} (hs : scalarG.IsLit s) {ws r : List Char} {c : Char} (hw : ∀ d ∈ ws, blank d = true)
    (hc : hexVal c = none) (hc' : blank c = false) (e : s.toList = ws ++ c :: r) :
    (∃ w, f2PrOp [s] = ok [w] ∧ QText HexWord w 0) ∧
    ∀ {z : PRat F2P}, F2Rat.Rep z 0 → (PRat.ofString F2P.rops F2P.rtext z s.toList).Ok fun q => F2Rat.Rep q.1 0 ∧ q.2 = true := by
  obtain ⟨⟨z, hz, rz⟩, o, ho, ro⟩ := f2_zero_one'
  refine ⟨?_, fun {z} hz => ?_⟩
  · unfold f2PrOp
    rw [hz, ok_bind, ho, ok_bind]
    exact calc_none F2P.ratRef f2_text (F2Rat.rep_iff.mpr rz) hs hw (by rw [hc]; rfl) hc' e
  · rw [e]
    unfold PRat.ofString
    refine (extract_none F2P.ratRef f2_text (F2Rat.rep_iff.mpr hz) (rest := c :: r) hw (by simp [hc, hc'])).bind fun q hq => ?_
    exact ⟨_, rfl, F2Rat.rep_iff.mp hq.1, by rw [hq.2]; rfl⟩

example : f2PrOp ["xyz", "+", "1"] = ok ["1".toList] ∧ f2PrOp ["", "+", "1"] = .throw ∧ f2PrOp ["/3"] = ok ["0".toList] := by decide +kernel

/-- C99, violated: a vector that contains such an element is read for ever. -/
theorem C99_violated_f2_forever {e : PRat F2P} {f : RatFunc (ZMod 2)} (he : F2Rat.Rep e f) {v : List (PRat F2P)} {cs ws r : List Char} {c : Char}
    (hw : ∀ d ∈ ws, blank d = true) (hc : hexVal c = none) (hc' : blank c = false)
    (h : cs = [] ∨ (∃ xs, VecText (QText HexWord) cs xs) ∧ ws ≠ []) (n : ℕ) :
    readVec (PRat.io F2P.rops F2P.rtext) n (e :: v) (cs ++ (ws ++ c :: r)) = timeout :=
  vec_forever F2P.ratRef f2_text (F2Rat.rep_iff.mpr he) hw (by rw [hc]; rfl) hc' h n

example : readVec (PRat.io F2P.rops F2P.rtext) 50 [⟨[0], [1]⟩] "1/2 x".toList = timeout := by decide +kernel
example : readVec (PRat.io F2P.rops F2P.rtext) 50 [⟨[0], [1]⟩] "5/6 3".toList = ok ([⟨[3], [2]⟩, ⟨[3], [1]⟩], ⟨[], true, false⟩) := by decide +kernel

end F2

/-! ### Quotients of polynomials over F_p -/

section Fp
attribute [local instance 5000] cdec
variable {p : ℕ} [hp : Fact p.Prime]

theorem stop_fp {rest : List Char} (h : ∀ c ∈ rest.head?, blank c = true ∨ c = '/') : ∀ c ∈ rest.head?, fpChar c = false := by
  intro c hc
  rcases h c hc with h | rfl
  · exact blank_fp (rest := [c]) (by simpa using h) c (by simp)
  · decide

/-- Comparing a polynomial with an `int`, where the coefficients can be. -/
theorem eqInt_one {α K : Type} [Field K] {rep : α → K → Prop} {O : CoefOps α} (h1 : ∀ {c x}, rep c x → (O.isInt c 1).Ok fun r => r = true ↔ x = 1)
    {a : CPoly α} {f : K[X]} (ha : PRep rep a f) : (CPoly.eqInt O a 1).Ok fun r => r = true ↔ f = 1 := by
  unfold CPoly.eqInt
  have hd := ha.deg
  split
  · rename_i h
    refine ⟨_, rfl, ?_⟩
    simp only [Bool.false_eq_true, false_iff]
    rintro rfl
    simp at hd
    omega
  · rename_i h
    push Not at h
    obtain ⟨c, hc, hc'⟩ := ha.c0
    have : rd a.coeffs 0 = ok c := by unfold rd; rw [hc]
    rw [this, ok_bind]
    refine (h1 hc').mono fun r hr => hr.trans ?_
    rw [h] at hd
    rw [eq_C_of_natDegree_eq_zero hd]
    constructor
    · intro h; simpa using congrArg C h
    · intro h; simpa using congrArg (fun f => f.coeff 0) h

theorem fp_text (hb : p ≤ 46341) : TextRef fpRText (PRep (IntMod.Rep p)) (FpText p) fpChar where
  read := by
    rintro z f0 hz ws t x rest hw ht hr
    obtain ⟨_, h1, r, rfl, h2⟩ := denotes_ok hp.out.pos (by omega) ht.2.2
    obtain ⟨c0, hc0, hc0'⟩ := hz.c0
    have := C93_fp_stream hc0 hw ht.1 (fpText_char ht) (stop_fp hr) (r := .val r) (by rw [hc0'.1]; exact h1)
    show (fpExtract _ _ >>= _).Ok _
    rw [this, ok_bind]
    exact ⟨_, rfl, h2, rfl⟩
  none := by
    rintro z f0 hz ws rest hw hr
    obtain ⟨c0, hc0, _⟩ := hz.c0
    have := C93_fp_stream_refused (a := z) (rest := rest) (by intro h; rw [h] at hc0; simp at hc0) hw hr
    show (fpExtract _ _ >>= _).Ok _
    rw [this, ok_bind]
    exact ⟨_, rfl, .inl hz, rfl⟩
  print := (C94_fp hb).print
  clean := (C94_fp hb).clean
  isOne := eqInt_one fun {c x} h => by
    refine ⟨_, rfl, ?_⟩
    obtain ⟨_, h1, h2, rfl⟩ := h
    have h2' := hp.out.two_le
    rw [beq_iff_eq]
    constructor
    · rintro h; rw [h]; simp
    · intro h
      have : ((c.residue - 1 : ℤ) : ZMod p) = 0 := by push_cast; rw [h]; ring
      rw [ZMod.intCast_zmod_eq_zero_iff_dvd] at this
      obtain ⟨k, hk⟩ := this
      have hk0 : k = 0 := by
        by_contra hk0
        rcases lt_or_gt_of_ne hk0 with h | h
        · have : (p : ℤ) * k ≤ p * (-1) := mul_le_mul_of_nonneg_left (by omega) (by omega)
          omega
        · have : (p : ℤ) * 1 ≤ p * k := mul_le_mul_of_nonneg_left (by omega) (by omega)
          omega
      rw [hk0, mul_zero] at hk
      omega

theorem norm_eq {α K : Type} [Field K] {rep : α → K → Prop} : PRat.Rep (PRep rep) = CRat.Norm rep := by
  funext a f
  exact propext CRat.norm_iff

theorem fp_ref (hb : p ≤ 46341) : RatRef False (CPoly.rops IntMod.cops) (PRep (IntMod.Rep p)) (PRep (IntMod.Rep p))
    (polyLt fun x y => x.val < y.val) := CPoly.ratRef (IntMod.cops_ref hp.out.two_le hb)

/-- C99: quotients over F_p as elements of vectors and matrices. -/
theorem C99_fp_elt (hb : p ≤ 46341) :
    EltSpec False (PRat.io (CPoly.rops IntMod.cops) fpRText) (CRat.FpNorm p) (QText (FpText p)) := by
  unfold CRat.FpNorm
  rw [← norm_eq]
  exact io_spec (fp_ref hb) (fp_text hb)

/-- C99: printing and reading gives an object of the same value, also within a longer text, if a blank follows. -/
theorem C99_fp_round_trip (hb : p ≤ 46341) {a z : PRat (CPoly IntMod)} {x y : RatFunc (ZMod p)} (ha : CRat.FpNorm p a x) (hz : CRat.FpNorm p z y)
    {rest : List Char} (hr : ∀ c ∈ rest.head?, blank c = true) : ∃ w, PRat.shown fpRText a = ok w ∧
      (PRat.extract (CPoly.rops IntMod.cops) fpRText z (w ++ rest)).Ok fun r => CRat.FpNorm p r.1 x ∧ r.2 = ⟨rest, rest.isEmpty, false⟩ := by
  obtain ⟨w, h1, h2⟩ := (C99_fp_elt hb).print ha
  refine ⟨w, h1, ?_⟩
  have := extract_ok (fp_ref hb) (fp_text hb) (CRat.norm_iff.mpr hz) (ws := []) (by simp) h2 hr
  exact this.mono fun r hr => ⟨CRat.norm_iff.mp hr.1, hr.2⟩

/-- C99: a denominator that is zero throws. -/
theorem C99_fp_zero_denominator (hb : p ≤ 46341) {z : PRat (CPoly IntMod)} {y : RatFunc (ZMod p)} (hz : CRat.FpNorm p z y)
    {ws u v rest : List Char} {n : (ZMod p)[X]} (hw : ∀ c ∈ ws, blank c = true) (hu : FpText p u n) (hv : FpText p v 0)
    (hr : ∀ c ∈ rest.head?, blank c = true) :
    PRat.extract (CPoly.rops IntMod.cops) fpRText z (ws ++ (u ++ '/' :: v) ++ rest) = .throw :=
  extract_throw (fp_ref hb) (fp_text hb) (CRat.norm_iff.mpr hz) hw hu hv hr

/-- C99: the reader for general streams: texts of quotients are read as such. -/
theorem C99_fp_stream (hb : p ≤ 46341) {z : PRat (CPoly IntMod)} {x y : RatFunc (ZMod p)} (hz : CRat.FpNorm p z y) {ws t rest : List Char} (hw : ∀ c ∈ ws, blank c = true)
    (ht : QText (FpText p) t x) (hr : ∀ c ∈ rest.head?, blank c = true) :
    (PRat.extractS (CPoly.rops IntMod.cops) fpRText z (ws ++ t ++ rest)).Ok fun r =>
      CRat.FpNorm p r.1 x ∧ r.2.cs = rest ∧ r.2.fail = false ∧ (r.2.eof = true → rest = []) :=
  (extractS_ok (fp_ref hb) (fp_text hb) (CRat.norm_iff.mpr hz) hw ht hr).mono fun r hr => ⟨CRat.norm_iff.mp hr.1, hr.2⟩

/-- C99, violated: reading from a general stream does not fail at its end, so a loop that reads quotients until that fails never ends. -/
theorem C99_violated_fp_stream_end (hb : p ≤ 46341) {z : PRat (CPoly IntMod)} (hz : CRat.FpNorm p z 0) {ws : List Char} (hw : ∀ c ∈ ws, blank c = true) :
    (PRat.extractS (CPoly.rops IntMod.cops) fpRText z ws).Ok fun r => CRat.FpNorm p r.1 0 ∧ r.2 = ⟨[], false, false⟩ := by
  have := extractS_none (fp_ref hb) (fp_text hb) (CRat.norm_iff.mpr hz) (rest := []) hw (by simp)
  rw [List.append_nil] at this
  exact this.mono fun r hr => ⟨CRat.norm_iff.mp hr.1, hr.2⟩

example : PRat.extractS (CPoly.rops IntMod.cops) fpRText ⟨⟨0, [⟨0, 7⟩]⟩, ⟨0, [⟨1, 7⟩]⟩⟩ [] =
    ok (⟨⟨0, [⟨0, 7⟩]⟩, ⟨0, [⟨1, 7⟩]⟩⟩, ⟨[], false, false⟩) := by decide +kernel

theorem fp_zero_one' (hb : p ≤ 46341) : (fpRat 0 p).Ok (fun z => CRat.FpNorm p z 0) ∧ (fpRat 1 p).Ok fun z => CRat.FpNorm p z 1 := by
  obtain ⟨e0, e1, r0, r1⟩ := fp_zero_one hp.out.two_le hb
  have C := IntMod.cops_ref hp.out.two_le hb
  obtain ⟨z, hz, hz'⟩ := sat_false.1 (CPoly.const_sat C r0)
  obtain ⟨o, ho, ho'⟩ := sat_false.1 (CPoly.const_sat C r1)
  have h0 := sat_false.1 (mk1_sat (fp_ref hb) hz')
  have h1 := sat_false.1 (mk1_sat (fp_ref hb) ho')
  unfold fpRat
  rw [e0, ok_bind, hz, ok_bind, e1, ok_bind, ho, ok_bind]
  simp only [map_zero, map_one] at h0 h1
  exact ⟨h0.mono fun r hr => CRat.norm_iff.mp hr, h1.mono fun r hr => CRat.norm_iff.mp hr⟩

/-- C99: `fp_pr_op`, where there is no unary minus (`C99_violated_fp_minus`, `C99_violated_fp_minus_eq`). -/
theorem C99_fp_partial (hb : p ≤ 46341) {lit : String → Option (RatFunc (ZMod p))} {t : Tree} {ts : List String} (hd : Derives scalarG .Q t ts)
    (hv : Literals (QText (FpText p)) lit t) (hn : NoNeg t) (hi : Exponents t) :
    Answers False (QText (FpText p)) (fpPrOp p ts)
      (denSQ (fieldSem _) lit intLit (fracOrd (polyLt fun x y => x.val < y.val)) t) := by
  obtain ⟨⟨z, hz, rz⟩, o, ho, ro⟩ := fp_zero_one' hb
  unfold fpPrOp
  rw [hz, ok_bind, ho, ok_bind]
  exact answers (rref (fp_ref hb) fun h => PRat.ng_sat (fp_ref hb) h) (io_spec (fp_ref hb) (fp_text hb)) (CRat.norm_iff.mpr rz)
    (CRat.norm_iff.mpr ro) hd hv (.inr hi) (.inl hn)

example : fpPrOp 7 ["12/34", "*", "3"] = ok ["53/52".toList] ∧ fpPrOp 7 ["1/12", "+", "1/13", "==", "25/156"] = ok [['1']] := by decide +kernel
example : fpPrOp 7 ["1", "/", "(", "1/10", "-", "2/20", ")"] = .throw ∧ fpPrOp 7 ["1/0"] = .throw := by decide +kernel

/-- C99: `fp_pr_mat_op`, where there is no unary minus and no `kerbas`. -/
theorem C99_fp_matrix_partial (hb : p ≤ 46341) {files : String → Option (List Char)} {ts : List String} {t : Tree} (h : Derives matG .Q t ts)
    (hl : MLiterals (QText (FpText p)) files t) (hn : ¬ Minus t) (hi : Exponents t) :
    MAnswers False (QText (FpText p)) (fpPrMatOp p files ts) (MDen (MLit (QText (FpText p)) files) false t) := by
  obtain ⟨⟨z, hz, rz⟩, o, ho, ro⟩ := fp_zero_one' hb
  unfold fpPrMatOp
  rw [hz, ok_bind, ho, ok_bind]
  exact C98_matrix (eltRef (fp_ref hb) _) (io_spec (fp_ref hb) (fp_text hb)) (CRat.norm_iff.mpr rz) (CRat.norm_iff.mpr ro)
    (fun h => absurd h hn) h hl (.inr hi)

example : fpPrMatOp 7 (fun _ => none) ["det", "[[1/2 1][3 1/3]]"] = ok ["3\n".toList] := by decide +kernel

/-- C99: without `rr` and `rrnz` it is the only value. -/
theorem C99_fp_value_partial (hb : p ≤ 46341) {files : String → Option (List Char)} {ts : List String} {t : Tree} (h : Derives matG .Q t ts)
    (hl : MLiterals (QText (FpText p)) files t) (hn : ¬ Minus t) (hi : Exponents t) (ht : Fixed t) :
    MRight False (QText (FpText p)) (fpPrMatOp p files ts) (MDen (MLit (QText (FpText p)) files) false t) := by
  obtain ⟨⟨z, hz, rz⟩, _⟩ := fp_zero_one' hb
  refine m_right (C98_value_unique (io_spec (fp_ref hb) (fp_text hb)) (CRat.norm_iff.mpr rz) (fun h h' => ?_) ht) (C99_fp_matrix_partial hb h hl hn hi)
  exact PRat.Rep.fun (rep := PRep (IntMod.Rep p)) (prep_fun (rep := IntMod.Rep p) fun h h' => h.2.2.2.symm.trans h'.2.2.2) h h'

/-- C99, violated: a literal that does not start with a digit or a comma is not refused; it counts as zero. -/
theorem C99_violated_fp_garbage (hb : p ≤ 46341) {s : String} (hs : scalarG.IsLit s) {ws r : List Char} {c : Char} (hw : ∀ d ∈ ws, blank d = true)
    (hc : fpChar c = false) (hc' : blank c = false) (e : s.toList = ws ++ c :: r) :
    (∃ w, fpPrOp p [s] = ok [w] ∧ QText (FpText p) w 0) ∧ ∀ {z : PRat (CPoly IntMod)}, CRat.FpNorm p z 0 →
      (PRat.ofString (CPoly.rops IntMod.cops) fpRText z s.toList).Ok fun q => CRat.FpNorm p q.1 0 ∧ q.2 = true := by
  obtain ⟨⟨z, hz, rz⟩, o, ho, ro⟩ := fp_zero_one' hb
  refine ⟨?_, fun {z} hz => ?_⟩
  · unfold fpPrOp
    rw [hz, ok_bind, ho, ok_bind]
    exact calc_none (fp_ref hb) (fp_text hb) (CRat.norm_iff.mpr rz) hs hw hc hc' e
  · rw [e]
    unfold PRat.ofString
    refine (extract_none (fp_ref hb) (fp_text hb) (CRat.norm_iff.mpr hz) (rest := c :: r) hw (by simp [hc, hc'])).bind fun q hq => ?_
    exact ⟨_, rfl, CRat.norm_iff.mp hq.1, by rw [hq.2]; rfl⟩

/-- C99, violated: a vector that contains such an element is read for ever. -/
theorem C99_violated_fp_forever (hb : p ≤ 46341) {e : PRat (CPoly IntMod)} {f : RatFunc (ZMod p)} (he : CRat.FpNorm p e f)
    {v : List (PRat (CPoly IntMod))} {cs ws r : List Char} {c : Char} (hw : ∀ d ∈ ws, blank d = true) (hc : fpChar c = false)
    (hc' : blank c = false) (h : cs = [] ∨ (∃ xs, VecText (QText (FpText p)) cs xs) ∧ ws ≠ []) (n : ℕ) :
    readVec (PRat.io (CPoly.rops IntMod.cops) fpRText) n (e :: v) (cs ++ (ws ++ c :: r)) = timeout :=
  vec_forever (fp_ref hb) (fp_text hb) (CRat.norm_iff.mpr he) hw hc hc' h n

example : fpPrOp 7 ["x", "+", "1"] = ok ["1".toList] ∧ fpPrOp 7 [","] = ub ∧ fpPrOp 7 ["1/x"] = .throw := by decide +kernel

theorem gcd_one_left {K : Type} [Field K] (n : K[X]) : EuclideanDomain.gcd (1 : K[X]) n = 1 := by
  rw [EuclideanDomain.gcd_val]
  simp

/-- C99, violated: minus a polynomial of positive degree is undefined, whatever the polynomial. -/
theorem C99_violated_fp_minus (hb : p ≤ 46341) {s : String} {f : (ZMod p)[X]} (hs : FpText p s.toList f) (hf : 0 < f.natDegree) :
    fpPrOp p ["-", s] = ub := by
  obtain ⟨⟨z, hz, rz⟩, o, ho, ro⟩ := fp_zero_one' hb
  unfold fpPrOp
  rw [hz, ok_bind, ho, ok_bind]
  obtain ⟨n0, d0, rz', _⟩ := CRat.norm_iff.mpr rz
  have := extract_ok (fp_ref hb) (fp_text hb) (CRat.norm_iff.mpr rz) (ws := []) (rest := []) (by simp) (.inl ⟨f, hs, rfl⟩) (by simp)
  rw [List.nil_append, List.append_nil] at this
  refine calc_neg (P := fun a => CRat.FpNorm p a (algebraMap _ _ f)) (fp_isLit hs)
    (this.sat.mono fun r hr => ⟨CRat.norm_iff.mp hr.1, by rw [hr.2]⟩) fun a ha => ?_
  obtain ⟨n, d, hv, hg⟩ := CRat.norm_iff.mpr ha
  have e : algebraMap (ZMod p)[X] (RatFunc (ZMod p)) f = algebraMap _ _ f / algebraMap (ZMod p)[X] (RatFunc (ZMod p)) 1 := by simp
  obtain ⟨rfl, rfl⟩ := lowest_unique one_ne_zero hv.d0 (gcd_one_left f) hg ((frac_eq one_ne_zero hv.d0).mp (e.symm.trans hv.val))
  exact CRat.C87_violated_neg_ub hb (CRat.val_iff.mp hv) hf

theorem fpq_isLit {s : String} {x : RatFunc (ZMod p)} (h : QText (FpText p) s.toList x) : scalarG.IsLit s := by
  have key : ∀ {u : List Char} {n : (ZMod p)[X]}, FpText p u n → ∃ c r, u = c :: r ∧ fpChar c = true := by
    intro u n hu
    obtain ⟨c, r, rfl⟩ := List.exists_cons_of_ne_nil hu.1
    exact ⟨c, r, rfl, fpText_char hu c (by simp)⟩
  rcases h with ⟨n, hn, _⟩ | ⟨u, v, n, d, e, hu, _⟩
  · obtain ⟨c, r, e, hc⟩ := key hn
    exact isLit_of_head e hc (by decide)
  · obtain ⟨c, r, rfl, hc⟩ := key hu
    exact isLit_of_head (r := r ++ '/' :: v) e hc (by decide)

theorem fp_elt (hb : p ≤ 46341) {s : String} {x y : RatFunc (ZMod p)} (h : QText (FpText p) s.toList x) {z : PRat (CPoly IntMod)}
    (hz : CRat.FpNorm p z y) : (elt (PRat.io (CPoly.rops IntMod.cops) fpRText) z s).Ok fun a => CRat.FpNorm p a x := by
  obtain ⟨⟨a, t⟩, h1, h2, h3⟩ := extract_ok (fp_ref hb) (fp_text hb) (CRat.norm_iff.mpr hz) (ws := []) (rest := []) (by simp) h (by simp)
  rw [List.nil_append, List.append_nil] at h1
  refine ⟨a, ?_, CRat.norm_iff.mp h2⟩
  unfold elt
  rw [show (PRat.io (CPoly.rops IntMod.cops) fpRText).read z s.toList = ok (a, t) from h1, ok_bind]
  dsimp only at h3
  rw [h3]; rfl

/-- C99, violated: for odd p, minus 1/d is never equal to a quotient that is given by a text, be it of the same value. -/
theorem C99_violated_fp_minus_eq (hb : p ≤ 46341) (h2 : p ≠ 2) {s t : String} {d : (ZMod p)[X]} {x : RatFunc (ZMod p)} (hd : 0 < d.natDegree)
    (hx : x = algebraMap (ZMod p)[X] (RatFunc (ZMod p)) 1 / algebraMap (ZMod p)[X] (RatFunc (ZMod p)) d)
    (hs : QText (FpText p) s.toList x) (ht : QText (FpText p) t.toList (-x)) : fpPrOp p ["-", s, "==", t] = ok [['0']] := by
  obtain ⟨⟨z, hz, rz⟩, o, ho, ro⟩ := fp_zero_one' hb
  obtain ⟨a, ha, ra⟩ := fp_elt hb hs rz
  obtain ⟨b, hb', rb⟩ := fp_elt hb ht rz
  unfold fpPrOp
  rw [hz, ok_bind, ho, ok_bind]
  have hD : Derives scalarG .Q (.bin .eq (.un .uminus (.lit s)) (.lit t)) ["-", s, "==", t] :=
    .eqs (a := ["-", s]) (b := [t]) (by simp [scalarG]) (.ofC (.ofE (.ofT (.ofF (.neg (.ofP (.lit (fpq_isLit hs))))))))
      (.ofE (.ofT (.ofF (.ofU (.ofP (.lit (fpq_isLit ht)))))))
  unfold calcOp
  rw [parse_derives (scalar_fits _ z o (elt _ z) (fun s => Scan.readInt s.toList)) hD]
  obtain ⟨n, d', hv, hg⟩ := CRat.norm_iff.mpr ra
  have hd0 : d ≠ 0 := by rintro rfl; simp at hd
  have h1 : EuclideanDomain.gcd d (1 : (ZMod p)[X]) = 1 := by
    have := CRat.gcd_const hd (one_ne_zero (α := ZMod p))
    rwa [C_1] at this
  obtain ⟨rfl, rfl⟩ := lowest_unique hd0 hv.d0 h1 hg ((frac_eq hd0 hv.d0).mp (hx.symm.trans hv.val))
  obtain ⟨c, hc, -, he⟩ := CRat.C87_violated_neg_eq hb h2 hd (CRat.val_iff.mp hv) rb
  have hn : (PRat.eops (CPoly.rops IntMod.cops)).neg a = ok c := hc
  have he' : (PRat.eops (CPoly.rops IntMod.cops)).eq c b = ok false := he
  simp [Expr.eval, Expr.scalar, ha, hb', scalarUn, scalarBin, hn, he', ofBool, each, showAtom]
  decide +kernel

example : fpPrOp 7 ["-", "1/10", "==", "6/10"] = ok [['0']] ∧ fpPrOp 7 ["0", "-", "1/10", "==", "6/10"] = ok [['1']] := by decide +kernel

example : fpPrOp 7 ["-", "10/12"] = ub ∧ fpPrOp 7 ["0", "-", "10/12"] = ok ["30/41".toList] := by decide +kernel

end Fp

/-! ### Quotients of polynomials over F_2^n -/

section F2n
attribute [local instance 5000] cdec
variable {m : (ZMod 2)[X]} [hm : Fact (Irreducible m)]

theorem stop_colon {rest : List Char} (h : ∀ c ∈ rest.head?, blank c = true ∨ c = '/') : rest.head? ≠ some ':' := by
  intro hc
  rcases h ':' hc with h | h <;> (revert h; decide)

theorem f2n_text : TextRef f2nRText (PRep (F2Mod.Rep m)) (Colons (HexRep m)) (fun c => (hexVal c).isSome) where
  read := by
    rintro z f0 hz ws t f rest hw ⟨ts, xs, hne, rfl, hts, rfl⟩ hr
    show (f2nExtract true _ _).Ok _
    obtain ⟨c0, hc0, hc0'⟩ := hz.c0
    cases hts with
    | nil => exact absurd rfl hne
    | @cons t x ts xs ht hts =>
      have := C93_f2n_stream true hc0'.cm hc0'.hm hc0'.m_ne hc0 rfl (ts := (ws ++ t) :: ts) (xs := x :: xs) (by simp)
        (.cons (ht.word hw) (hts.imp fun u y hu => hu.word (ws := []) (by simp))) (stop_hex hr) (stop_colon hr)
      rw [intercalate_cons] at this ⊢
      rw [← List.append_assoc]
      simpa using this
  none := by
    rintro z f0 hz ws rest hw hr
    obtain ⟨c0, hc0, hc0'⟩ := hz.c0
    have hrd : rd z.coeffs 0 = ok c0 := by unfold rd; rw [hc0]
    obtain ⟨s, hs, hs1, _⟩ := F2Mod.mk'_ok (r := F2P.ofInt 0) (Canon.good canon_zero) hc0'.cm hc0'.hm hc0'.m_ne
    show (f2nExtract true _ _).Ok _
    unfold f2nExtract f2nGet
    rw [hrd, ok_bind, hs, ok_bind, f2_none hw hr, ok_bind]
    simp only [if_true, ok_bind]
    refine ⟨_, rfl, .inr (prep_zero ?_), rfl⟩
    rwa [show toPoly (F2P.ofInt 0) = 0 from toPoly_zero, map_zero] at hs1
  print := C94_f2n.print
  clean := C94_f2n.clean
  isOne := eqInt_one fun {c x} h => by
    refine (f2_isOne h.cr).mono fun r hr => hr.trans ?_
    rw [← h.val]
    constructor
    · intro e; rw [e, map_one]
    · intro e
      rw [← map_one (AdjoinRoot.mk m), AdjoinRoot.mk_eq_mk] at e
      refine sub_eq_zero.1 (eq_zero_of_dvd_of_degree_lt e (lt_of_le_of_lt (degree_sub_le _ _) (max_lt h.deg ?_)))
      rw [degree_one]
      exact natDegree_pos_iff_degree_pos.mp hm.out.natDegree_pos

theorem f2n_ref : RatRef False (CPoly.rops F2Mod.cops) (PRep (F2Mod.Rep m)) (PRep (F2Mod.Rep m)) (polyLt (F2Mod.ordQ m)) :=
  CPoly.ratRef (F2Mod.cops_ref hm.out.ne_zero)

/-- C99: quotients over F_2^n as elements of vectors and matrices. -/
theorem C99_f2n_elt : EltSpec False (PRat.io (CPoly.rops F2Mod.cops) f2nRText) (CRat.Norm (F2Mod.Rep m)) (QText (Colons (HexRep m))) := by
  rw [← norm_eq]
  exact io_spec f2n_ref f2n_text

/-- C99: printing and reading gives an object of the same value, also within a longer text, if a blank follows. -/
theorem C99_f2n_round_trip {a z : PRat (CPoly F2Mod)} {x y : RatFunc (AdjoinRoot m)} (ha : CRat.Norm (F2Mod.Rep m) a x)
    (hz : CRat.Norm (F2Mod.Rep m) z y) {rest : List Char} (hr : ∀ c ∈ rest.head?, blank c = true) : ∃ w, PRat.shown f2nRText a = ok w ∧
      (PRat.extract (CPoly.rops F2Mod.cops) f2nRText z (w ++ rest)).Ok fun r =>
        CRat.Norm (F2Mod.Rep m) r.1 x ∧ r.2 = ⟨rest, rest.isEmpty, false⟩ := by
  obtain ⟨w, h1, h2⟩ := C99_f2n_elt.print ha
  refine ⟨w, h1, ?_⟩
  have := extract_ok f2n_ref f2n_text (CRat.norm_iff.mpr hz) (ws := []) (by simp) h2 hr
  exact this.mono fun r hr => ⟨CRat.norm_iff.mp hr.1, hr.2⟩

/-- C99: a denominator that is zero throws. -/
theorem C99_f2n_zero_denominator {z : PRat (CPoly F2Mod)} {y : RatFunc (AdjoinRoot m)} (hz : CRat.Norm (F2Mod.Rep m) z y)
    {ws u v rest : List Char} {n : (AdjoinRoot m)[X]} (hw : ∀ c ∈ ws, blank c = true) (hu : Colons (HexRep m) u n)
    (hv : Colons (HexRep m) v 0) (hr : ∀ c ∈ rest.head?, blank c = true) :
    PRat.extract (CPoly.rops F2Mod.cops) f2nRText z (ws ++ (u ++ '/' :: v) ++ rest) = .throw :=
  extract_throw f2n_ref f2n_text (CRat.norm_iff.mpr hz) hw hu hv hr

theorem f2n_zero_one' {mm : F2P} (hc : Canon mm) (hmm : toPoly mm = m) :
    (f2nRat 0 mm).Ok (fun z => CRat.Norm (F2Mod.Rep m) z 0) ∧ (f2nRat 1 mm).Ok fun z => CRat.Norm (F2Mod.Rep m) z 1 := by
  obtain ⟨⟨z, hz, hz'⟩, o, ho, ho'⟩ := f2n_psub hc hmm
  have h0 := sat_false.1 (mk1_sat f2n_ref hz')
  have h1 := sat_false.1 (mk1_sat f2n_ref ho')
  unfold f2nRat
  rw [hz, ok_bind, ho, ok_bind]
  simp only [map_zero, map_one] at h0 h1
  exact ⟨h0.mono fun r hr => CRat.norm_iff.mp hr, h1.mono fun r hr => CRat.norm_iff.mp hr⟩

/-- Unary minus is the identity, or undefined. -/
theorem f2n_neg {a : PRat (CPoly F2Mod)} {f : RatFunc (AdjoinRoot m)} (h : PRat.Rep (PRep (F2Mod.Rep m)) a f) :
    (PRat.neg (CPoly.rops F2Mod.cops) a).Sat True fun r => PRat.Rep (PRep (F2Mod.Rep m)) r (-f) := by
  obtain ⟨n, d, hv, hg⟩ := h
  have H := CRat.C87_f2n_neg_partial (CRat.val_iff.mp hv)
  rcases Nat.eq_zero_or_pos n.natDegree with h0 | h0
  · refine ((H.1 h0).mono fun r hr => ⟨-n, d, CRat.val_iff.mpr hr, ?_⟩).sat
    have : -n = n := by
      have h2 : (2 : (AdjoinRoot m)[X]) = 0 := by
        have : ((2 : (ZMod 2)[X])) = 0 := by
          rw [show (2 : (ZMod 2)[X]) = C 2 from rfl, show (2 : ZMod 2) = 0 from rfl, C_0]
        have := congrArg (fun q => C (AdjoinRoot.mk m q)) this
        rw [map_zero, map_zero, map_ofNat, map_ofNat] at this
        exact this
      linear_combination (-n) * h2
    rw [this, hg]
  · rw [H.2 h0]; trivial

theorem rref_weaken {α K : Type} [Field K] {A : EOps α} {rep : α → K → Prop} {S : Sem K} {ord : K → K → Prop} {ng ng' : α → Res α}
    (H : RRef False { A with neg := ng' } rep S ord) (hn : ∀ {a x}, rep a x → (ng a).Sat True fun r => rep r (-x)) : RRef True { A with neg := ng } rep S ord := by
  have key : ∀ {β V : Type} {r : Res β} {d : Option V} {P : β → V → Prop}, Right False r d P → Right True r d P := by
    intro β V r d P h
    cases d with
    | none => exact .inl (throws_false.1 h)
    | some x => exact (sat_false.1 h).sat
  exact {
    neg := hn
    add := fun h h' => (sat_false.1 (H.add h h')).sat
    sub := fun h h' => (sat_false.1 (H.sub h h')).sat
    mul := fun h h' => (sat_false.1 (H.mul h h')).sat
    div := fun h h' => key (H.div h h')
    mod := fun h h' => key (H.mod h h')
    eq := fun h h' => (sat_false.1 (H.eq h h')).sat
    ne := fun h h' => (sat_false.1 (H.ne h h')).sat
    lt := fun h h' => (sat_false.1 (H.lt h h')).sat
    le := fun h h' => (sat_false.1 (H.le h h')).sat
    gt := fun h h' => (sat_false.1 (H.gt h h')).sat
    ge := fun h h' => (sat_false.1 (H.ge h h')).sat }

/-- C99: `f2n_pr_op`: exact without unary minus; with it (`C99_violated_f2n_minus`) or with the exponent `INT_MIN` the behaviour may
be undefined instead. -/
theorem C99_f2n_partial {mm : F2P} (hc : Canon mm) (hmm : toPoly mm = m) {lit : String → Option (RatFunc (AdjoinRoot m))} {t : Tree}
    {ts : List String} (hd : Derives scalarG .Q t ts) (hv : Literals (QText (Colons (HexRep m))) lit t) :
    (NoNeg t → Exponents t → Answers False (QText (Colons (HexRep m))) (f2nPrOp mm ts)
      (denSQ (fieldSem _) lit intLit (fracOrd (polyLt (F2Mod.ordQ m))) t)) ∧
    Answers True (QText (Colons (HexRep m))) (f2nPrOp mm ts) (denSQ (fieldSem _) lit intLit (fracOrd (polyLt (F2Mod.ordQ m))) t) := by
  obtain ⟨⟨z, hz, rz⟩, o, ho, ro⟩ := f2n_zero_one' hc hmm
  unfold f2nPrOp
  rw [hz, ok_bind, ho, ok_bind]
  have R := rref (f2n_ref (m := m)) fun h => PRat.ng_sat f2n_ref h
  have R' : RRef True { eops (CPoly.rops F2Mod.cops) with neg := PRat.neg (CPoly.rops F2Mod.cops) } (Rep (PRep (F2Mod.Rep m))) _ _ :=
    rref_weaken (ng := PRat.neg (CPoly.rops F2Mod.cops)) R fun h => f2n_neg h
  exact ⟨fun hn hi => answers R (io_spec f2n_ref f2n_text) (CRat.norm_iff.mpr rz) (CRat.norm_iff.mpr ro) hd hv (.inr hi) (.inl hn),
    answers R' (io_spec f2n_ref f2n_text) (CRat.norm_iff.mpr rz) (CRat.norm_iff.mpr ro) hd hv (.inl trivial) (.inr rfl)⟩

example : f2nPrOp [7] ["2:1/3", "/", "2:1"] = ok ["2".toList] ∧ f2nPrOp [7] ["1/1:2", "+", "1:0"] = ok ["1:2:1/1:2".toList] := by decide +kernel

/-- C99: `f2n_pr_mat_op`, likewise. -/
theorem C99_f2n_matrix_partial {mm : F2P} (hc : Canon mm) (hmm : toPoly mm = m) {files : String → Option (List Char)} {ts : List String} {t : Tree}
    (h : Derives matG .Q t ts) (hl : MLiterals (QText (Colons (HexRep m))) files t) :
    (¬ Minus t → Exponents t → MAnswers False (QText (Colons (HexRep m))) (f2nPrMatOp mm files ts)
      (MDen (MLit (QText (Colons (HexRep m))) files) false t)) ∧
    MAnswers True (QText (Colons (HexRep m))) (f2nPrMatOp mm files ts) (MDen (MLit (QText (Colons (HexRep m))) files) false t) := by
  obtain ⟨⟨z, hz, rz⟩, o, ho, ro⟩ := f2n_zero_one' hc hmm
  unfold f2nPrMatOp
  rw [hz, ok_bind, ho, ok_bind]
  exact ⟨fun hn hi => C98_matrix (eltRef f2n_ref _) (io_spec f2n_ref f2n_text) (CRat.norm_iff.mpr rz) (CRat.norm_iff.mpr ro)
      (fun h => absurd h hn) h hl (.inr hi),
    C98_matrix (elt_weaken (eltRef f2n_ref _) True) (spec_weaken (io_spec f2n_ref f2n_text) True) (CRat.norm_iff.mpr rz) (CRat.norm_iff.mpr ro)
      (fun _ => ⟨fun h => f2n_neg h⟩) h hl (.inl trivial)⟩

example : f2nPrMatOp [7] (fun _ => none) ["[[1/1:0 1][3 1/3]]", "^", "2"] = ok ["3:0:1/1:0:0 2:1/1:0\n2:1/2:0 0\n".toList] := by decide +kernel

/-- C99: without `rr` and `rrnz` it is the only value. -/
theorem C99_f2n_value_partial {mm : F2P} (hc : Canon mm) (hmm : toPoly mm = m) {files : String → Option (List Char)} {ts : List String} {t : Tree}
    (h : Derives matG .Q t ts) (hl : MLiterals (QText (Colons (HexRep m))) files t) (hn : ¬ Minus t) (hi : Exponents t) (ht : Fixed t) :
    MRight False (QText (Colons (HexRep m))) (f2nPrMatOp mm files ts) (MDen (MLit (QText (Colons (HexRep m))) files) false t) := by
  obtain ⟨⟨z, hz, rz⟩, _⟩ := f2n_zero_one' hc hmm
  refine m_right (C98_value_unique (io_spec f2n_ref f2n_text) (CRat.norm_iff.mpr rz) (fun h h' => ?_) ht) ((C99_f2n_matrix_partial hc hmm h hl).1 hn hi)
  exact PRat.Rep.fun (rep := PRep (F2Mod.Rep m)) (prep_fun (rep := F2Mod.Rep m) fun h h' => h.val.symm.trans h'.val) h h'

/-- C99, violated: a literal that does not start with a hexadecimal digit is not refused; it counts as zero. -/
theorem C99_violated_f2n_garbage {mm : F2P} (hcm : Canon mm) (hmm : toPoly mm = m) {s : String} (hs : scalarG.IsLit s) {ws r : List Char} {c : Char}
    (hw : ∀ d ∈ ws, blank d = true) (hc : hexVal c = none) (hc' : blank c = false) (e : s.toList = ws ++ c :: r) :
    (∃ w, f2nPrOp mm [s] = ok [w] ∧ QText (Colons (HexRep m)) w 0) ∧ ∀ {z : PRat (CPoly F2Mod)}, CRat.Norm (F2Mod.Rep m) z 0 →
      (PRat.ofString (CPoly.rops F2Mod.cops) f2nRText z s.toList).Ok fun q => CRat.Norm (F2Mod.Rep m) q.1 0 ∧ q.2 = true := by
  obtain ⟨⟨z, hz, rz⟩, o, ho, ro⟩ := f2n_zero_one' hcm hmm
  refine ⟨?_, fun {z} hz => ?_⟩
  · unfold f2nPrOp
    rw [hz, ok_bind, ho, ok_bind]
    exact calc_none f2n_ref f2n_text (CRat.norm_iff.mpr rz) hs hw (by rw [hc]; rfl) hc' e
  · rw [e]
    unfold PRat.ofString
    refine (extract_none f2n_ref f2n_text (CRat.norm_iff.mpr hz) (rest := c :: r) hw (by simp [hc, hc'])).bind fun q hq => ?_
    exact ⟨_, rfl, CRat.norm_iff.mp hq.1, by rw [hq.2]; rfl⟩

/-- C99, violated: a vector that contains such an element is read for ever. -/
theorem C99_violated_f2n_forever {e : PRat (CPoly F2Mod)} {f : RatFunc (AdjoinRoot m)} (he : CRat.Norm (F2Mod.Rep m) e f)
    {v : List (PRat (CPoly F2Mod))} {cs ws r : List Char} {c : Char} (hw : ∀ d ∈ ws, blank d = true) (hc : hexVal c = none)
    (hc' : blank c = false) (h : cs = [] ∨ (∃ xs, VecText (QText (Colons (HexRep m))) cs xs) ∧ ws ≠ []) (n : ℕ) :
    readVec (PRat.io (CPoly.rops F2Mod.cops) f2nRText) n (e :: v) (cs ++ (ws ++ c :: r)) = timeout :=
  vec_forever f2n_ref f2n_text (CRat.norm_iff.mpr he) hw (by rw [hc]; rfl) hc' h n

/-- C99, violated: minus a polynomial of positive degree is undefined, whatever the polynomial. -/
theorem C99_violated_f2n_minus {mm : F2P} (hc : Canon mm) (hmm : toPoly mm = m) {s : String} {f : (AdjoinRoot m)[X]}
    (hs : Colons (HexRep m) s.toList f) (hf : 0 < f.natDegree) : f2nPrOp mm ["-", s] = ub := by
  obtain ⟨⟨z, hz, rz⟩, o, ho, ro⟩ := f2n_zero_one' hc hmm
  unfold f2nPrOp
  rw [hz, ok_bind, ho, ok_bind]
  have := extract_ok f2n_ref f2n_text (CRat.norm_iff.mpr rz) (ws := []) (rest := []) (by simp) (.inl ⟨f, hs, rfl⟩) (by simp)
  rw [List.nil_append, List.append_nil] at this
  refine calc_neg (P := fun a => CRat.Norm (F2Mod.Rep m) a (algebraMap _ _ f)) (hexs_isLit hs)
    (this.sat.mono fun r hr => ⟨CRat.norm_iff.mp hr.1, by rw [hr.2]⟩) fun a ha => ?_
  obtain ⟨n, d, hv, hg⟩ := CRat.norm_iff.mpr ha
  have e : algebraMap (AdjoinRoot m)[X] (RatFunc (AdjoinRoot m)) f = algebraMap _ _ f / algebraMap (AdjoinRoot m)[X] (RatFunc (AdjoinRoot m)) 1 := by simp
  obtain ⟨rfl, rfl⟩ := lowest_unique one_ne_zero hv.d0 (gcd_one_left f) hg ((frac_eq one_ne_zero hv.d0).mp (e.symm.trans hv.val))
  exact (CRat.C87_f2n_neg_partial (CRat.val_iff.mp hv)).2 hf

example : f2nPrOp [7] ["-", "1:0/3"] = ub ∧ f2nPrOp [7] ["0", "-", "1:0/3"] = ok ["2:0".toList] := by decide +kernel

end F2n
end Expr99
end Spffl.Props
