import Verif.Proof.ExprInst2
import Verif.Props.Expr
import Verif.Props.VecText2

/-!
# C96: the calculators for polynomials and for residues of polynomials
-/

namespace Spffl.Props
namespace Expr96
open Res CPoly Polynomial Spffl.Expr Spffl.VText Spffl.Scan Spffl.PText PText93 VText94 Expr90

/-! ### What is claimed -/

section
variable {K : Type} [CommRing K]

/-- What the calculator does, given the value of the expression: it prints a text of that value, or `1` or `0` for a
comparison; it throws when there is no value.  Where `U`, the behaviour may be undefined instead. -/
def Answers (U : Prop) (Text : List Char → K → Prop) (r : Res (List (List Char))) : Option (K ⊕ Bool) → Prop
  | some (.inl x) => (∃ w, r = ok [w] ∧ Text w x) ∨ (U ∧ r = ub)
  | some (.inr b) => r = ok [[if b then '1' else '0']] ∨ (U ∧ r = ub)
  | none => r = .throw ∨ (U ∧ r = ub)

/-- Every literal of the expression, other than the exponents, is the text of the value that `lit` gives. -/
def Literals (Text : List Char → K → Prop) (lit : String → Option K) (t : Tree) : Prop :=
  ∀ s, (false, s) ∈ t.lits false → ∃ x, lit s = some x ∧ Text s.toList x

/-- No exponent is `INT_MIN` (`C90_violated_int_min`). -/
def Exponents (t : Tree) : Prop := ∀ s, (true, s) ∈ t.lits false → intLit s ≠ some INT_MIN

theorem answers_of {U : Prop} {Text : List Char → K → Prop} {r : Res (List (List Char))} {d : Option (K ⊕ Bool)}
    (h : Right U r d (fun out x => ∃ w, out = [w] ∧ Shows Text w x)) : Answers U Text r d := by
  cases d with
  | none => exact h
  | some x =>
    have h : r.Sat U fun out => ∃ w, out = [w] ∧ Shows Text w x := h
    cases r with
    | ok out =>
      obtain ⟨w, rfl, hw⟩ := h
      cases x with
      | inl x => exact .inl ⟨w, rfl, hw⟩
      | inr b => exact .inl (by rw [show w = _ from hw])
    | ub => cases x <;> exact .inr ⟨h, rfl⟩
    | throw => exact h.elim
    | timeout => exact h.elim

theorem exps {t : Tree} {U : Prop} (h : U ∨ Exponents t) : ∀ s, (true, s) ∈ t.lits false →
    Right False (Scan.readInt s.toList) (intLit s) (fun n k => n = k ∧ InInt n ∧ (n = INT_MIN → U)) := by
  intro s hs
  have hr := intLit_right s
  cases hl : intLit s with
  | none => rw [hl] at hr; exact hr
  | some k =>
    rw [hl] at hr
    refine Sat.mono hr fun n hn => ⟨hn.1, hn.2, fun e => ?_⟩
    rcases h with h | h
    · exact h
    · exact absurd (by rw [hl, ← hn.1, e]) (h s hs)

theorem isLit_of_chars {s : String} {P : Char → Bool} (hs : ∀ c ∈ s.toList, P c = true)
    (hk : ∀ k ∈ scalarKeys, ∃ c ∈ k.toList, P c = false) : scalarG.IsLit s := by
  have h : s ∉ scalarKeys := by
    intro h
    obtain ⟨c, hc, he⟩ := hk s h
    rw [hs c hc] at he; cases he
  simp only [scalarKeys, List.mem_cons, List.not_mem_nil, or_false, not_or] at h
  simp [Gram.IsLit, scalarG, addTable, h]

/-- The general form, for a type whose unary minus may be replaced. -/
theorem answers {α : Type} {U : Prop} {O : EOps α} {E : EltIO α} {zero one : α} {rep : α → K → Prop} {S : Sem K} {ord : K → K → Prop}
    {Text : List Char → K → Prop} {ng : α → Res α} (H : RRef U { O with neg := ng } rep S ord) (HE : EltSpec False E rep Text) (h0 : rep zero 0) (h1 : rep one 1)
    {lit : String → Option K} {t : Tree} {ts : List String} (hd : Derives scalarG .Q t ts) (hv : Literals Text lit t)
    (hi : U ∨ Exponents t) (hn : NoNeg t ∨ ng = O.neg) :
    Answers U Text (calcOp O E zero one ts) (denSQ S lit intLit ord t) := by
  have e : calcOp O E zero one ts = calcOp { O with neg := ng } E zero one ts := by
    rcases hn with hn | rfl
    · exact (calc_noneg ng hd hn).symm
    · rfl
  rw [e]
  refine answers_of (calc_right H h0 h1 (fun {t x} ht => ?_) HE.print hd hv (exps hi))
  have := HE.read h0 (ws := []) (rest := []) (by simp) ht (by simp)
  rw [List.nil_append, List.append_nil] at this
  exact (sat_false.1 this).sat.mono fun r hr => ⟨hr.1, by rw [hr.2]⟩

end

/-! ### Polynomials over F_2 -/

section F2
open F2P

theorem f2_zero_one : WR F2P.zero 0 ∧ WR F2P.one 1 := ⟨⟨canon_zero.good, toPoly_zero⟩, ⟨canon_one.good, toPoly_one⟩⟩

theorem hex_isLit {s : String} {f : (ZMod 2)[X]} (h : HexWord s.toList f) : scalarG.IsLit s :=
  isLit_of_chars (P := fun c => (hexVal c).isSome) h.2.1 (by decide +kernel)

theorem f2_read {z : F2P} {t : List Char} {f : (ZMod 2)[X]} (h : HexWord t f) :
    (f2IO.read z t).Ok fun r => (Canon r.1 ∧ toPoly r.1 = f) ∧ r.2.fail = false := by
  obtain ⟨⟨r, f', s⟩, h1, h4, h5, h6, h7⟩ := F2P.read_ok (ws := []) (rest := []) (by simp) h.1 h.2.1 (by simp)
  dsimp only at h4 h5 h6 h7
  subst h6 h7
  rw [List.nil_append, List.append_nil] at h1
  show (F2P.read _ >>= fun r => ok (r.1, _)).Ok _
  rw [h1, ok_bind]
  exact ⟨_, rfl, ⟨h5, nval_inj (h4.trans h.2.2.symm)⟩, rfl⟩

/-- C96: `f2_p_op` prints the value of the expression, in hexadecimal, with quotients and remainders those of division of
polynomials; it throws where a divisor is zero.  Missing for the full property: products that start with a zero of several words
(`C96_violated_f2_zero`), and the exponent `INT_MIN`. -/
theorem C96_f2_partial {lit : String → Option (ZMod 2)[X]} {t : Tree} {ts : List String} (hd : Derives scalarG .Q t ts)
    (hv : Literals HexWord lit t) :
    Answers True HexWord (f2POp ts) (denSQ (polySem (ZMod 2)) lit intLit (fun x y => nval x < nval y) t) := by
  refine answers_of (calc_right f2_rref f2_zero_one.1 f2_zero_one.2 (fun {t x} ht => ?_) (fun {a x} ha => ?_) hd hv (exps (.inl trivial)))
  · exact (f2_read ht).sat.mono fun r hr => ⟨⟨hr.1.1.good, hr.1.2⟩, hr.2⟩
  · obtain ⟨h1, rfl⟩ := ha
    exact ⟨_, print_ok h1.1, hexOf_ne_nil _, allHex_hexOf _, (hexNum_hexOf _).symm⟩

example : f2POp ["(", "7", "*", "7", "+", "3", ")", "/", "2", "^", "2"] = ok ["5".toList] := by decide +kernel
example : f2POp ["7", "%", "3", "==", "1"] = ok [['1']] ∧ f2POp ["7", "%", "(", "3", "+", "3", ")"] = .throw := by decide +kernel

/-- C96, violated: a polynomial of degree 64 or more times zero is a zero of more than one word, and multiplying that by a
shorter polynomial writes beyond the end of the product. -/
theorem C96_violated_f2_zero {s s' : String} {f g : (ZMod 2)[X]} (hs : HexWord s.toList f) (hs' : HexWord s'.toList g)
    (hg : g ≠ 0) (hlt : g.natDegree / 64 < f.natDegree / 64) : f2POp [s, "*", "0", "*", s'] = ub := by
  have hz : HexWord "0".toList 0 := ⟨by simp, by decide +kernel, by simp [nval]; decide +kernel⟩
  have hd : Derives scalarG .Q (.bin .mul (.bin .mul (.lit s) (.lit "0")) (.lit s')) [s, "*", "0", "*", s'] :=
    .ofC (.ofE (.ofT (.mul (a := [s, "*", "0"]) (b := [s']) (s := "*") (by simp [scalarG])
      (.mul (a := [s]) (b := ["0"]) (s := "*") (by simp [scalarG]) (.ofF (.ofU (.ofP (.lit (hex_isLit hs))))) (.ofU (.ofP (.lit (hex_isLit hz)))))
      (.ofU (.ofP (.lit (hex_isLit hs')))))))
  obtain ⟨r1, e1, ⟨c1, p1⟩, q1⟩ := f2_read (z := F2P.zero) hs
  obtain ⟨r2, e2, ⟨c2, p2⟩, q2⟩ := f2_read (z := F2P.zero) hz
  obtain ⟨r3, e3, ⟨c3, p3⟩, q3⟩ := f2_read (z := F2P.zero) hs'
  obtain ⟨m, em, hm1, hm2⟩ := F2P.mul_gen (a := r1.1) (b := r2.1) (.inl c1)
  have hub : F2P.mul m r3.1 = ub := by
    rw [p1, p2, mul_zero] at hm1
    rw [p1, p2, natDegree_zero] at hm2
    refine mul_zero_ub (ne_nil_of_length (by omega)) hm1 (by rw [p3]; exact hg) ?_
    rw [p3, hm2]; omega
  unfold f2POp calcOp
  rw [parse_derives (scalar_fits f2Ops F2P.zero F2P.one (elt f2IO F2P.zero) (fun s => Scan.readInt s.toList)) hd]
  have : Expr.eval (scalar f2Ops F2P.zero F2P.one (elt f2IO F2P.zero) (fun s => Scan.readInt s.toList)) false
      (.bin .mul (.bin .mul (.lit s) (.lit "0")) (.lit s')) = ub := by
    simp only [Expr.eval, scalar, Bool.false_eq_true, if_false, Bool.false_or, show decide (Op.mul = Op.exp) = false from rfl, elt, e1, e2, e3,
      ok_bind, q1, q2, q3, scalarBin]
    show (F2P.mul r1.1 r2.1 >>= _) >>= _ = ub
    rw [em]
    show (F2P.mul m r3.1 >>= _) = ub
    rw [hub]
    rfl
  rw [this]
  rfl

example : f2POp ["10000000000000000", "*", "0", "*", "1"] = ub := by decide +kernel
example : f2POp ["10000000000000000", "*", "(", "0", "*", "1", ")"] = ok ["0".toList] := by decide +kernel

/-- C96: `f2_pm_op`, for any modulus of positive degree; only the units divide. -/
theorem C96_f2mod {m : (ZMod 2)[X]} (hm : 0 < m.natDegree) {mm : F2P} (hc : Canon mm) (hmm : toPoly mm = m)
    {lit : String → Option (AdjoinRoot m)} {t : Tree} {ts : List String} (hd : Derives scalarG .Q t ts)
    (hv : Literals (HexRep m) lit t) (hi : Exponents t) :
    Answers False (HexRep m) (f2PmOp mm ts) (denSQ (unitSem (AdjoinRoot m)) lit intLit (F2Mod.ordQ m) t) := by
  have hm0 : m ≠ 0 := by rintro rfl; simp at hm
  obtain ⟨z, hz, hz', _⟩ := F2Mod.mk'_ok (F2Mod.canon_ofInt 0).good hc hmm hm0
  obtain ⟨o, ho, ho', _⟩ := F2Mod.mk'_ok (F2Mod.canon_ofInt 1).good hc hmm hm0
  rw [show toPoly (F2P.ofInt 0) = 0 from toPoly_zero, map_zero] at hz'
  rw [show toPoly (F2P.ofInt 1) = 1 from toPoly_one, map_one] at ho'
  unfold f2PmOp
  rw [hz, ok_bind, ho, ok_bind]
  exact answers (f2mod_rref hm0) (C94_f2mod hm) hz' ho' hd hv (.inr hi) (.inr rfl)

example : f2PmOp [0x13] ["-", "a", "/", "(", "2", "+", "5", ")", "^", "-3"] = ok ["a".toList] := by decide +kernel
example : f2PmOp [0x15] ["1", "/", "7"] = .throw ∧ f2PmOp [0x15] ["1", "/", "2"] = ok ["a".toList] := by decide +kernel

end F2

/-! ### Polynomials over F_p, and residues -/

section Fp
variable {p : ℕ} [hp : Fact p.Prime] {M : (ZMod p)[X]}

theorem fpP_eq (hb : p ≤ 46341) (ts : List String) : ∃ zero one, PRep (IntMod.Rep p) zero 0 ∧ PRep (IntMod.Rep p) one 1 ∧
    fpPOp p ts = calcOp (cpolyOps IntMod.cops) fpIO zero one ts := by
  obtain ⟨e0, e1, r0, r1⟩ := fp_zero_one hp.out.two_le hb
  have C := IntMod.cops_ref hp.out.two_le hb
  obtain ⟨z, hz, hz'⟩ := sat_false.1 (CPoly.const_sat C r0)
  obtain ⟨o, ho, ho'⟩ := sat_false.1 (CPoly.const_sat C r1)
  refine ⟨z, o, by simpa using hz', by simpa using ho', ?_⟩
  unfold fpPOp
  rw [e0, ok_bind, hz, ok_bind, e1, ok_bind, ho, ok_bind]

/-- C96: `fp_p_op`, for any prime up to 46341.  Without unary minus, what is printed is right, and the calculator throws where
the expression has no value; with unary minus (`C96_violated_fp_neg`) or the exponent `INT_MIN`, the behaviour may be undefined
instead. -/
theorem C96_fp_partial (hb : p ≤ 46341) {lit : String → Option (ZMod p)[X]} {t : Tree} {ts : List String} (hd : Derives scalarG .Q t ts)
    (hv : Literals (FpText p) lit t) :
    (NoNeg t → Exponents t → Answers False (FpText p) (fpPOp p ts) (denSQ (polySem (ZMod p)) lit intLit (polyLt fun x y => x.val < y.val) t)) ∧
    Answers True (FpText p) (fpPOp p ts) (denSQ (polySem (ZMod p)) lit intLit (polyLt fun x y => x.val < y.val) t) := by
  obtain ⟨z, o, hz, ho, e⟩ := fpP_eq hb ts
  rw [e]
  have C := IntMod.cops_ref hp.out.two_le hb
  refine ⟨fun hn hi => ?_, ?_⟩
  · exact answers (cpoly_rref C fun h => ng_sat C h) (C94_fp hb) hz ho hd hv (.inr hi) (.inl hn)
  · have C' := C.weaken True
    exact answers (cpoly_rref C' fun h => neg_true C' h) (C94_fp hb) hz ho hd hv (.inl trivial) (.inr rfl)

example : fpPOp 5 ["1,4", "*", "1,1", "-", "2,0,0"] = ok ["404".toList] := by decide +kernel
example : fpPOp 5 ["100", "/", "12"] = ok ["13".toList] ∧ fpPOp 5 ["100", "%", "12", "==", "4"] = ok [['1']] := by decide +kernel

theorem fp_isLit {s : String} {f : (ZMod p)[X]} (h : FpText p s.toList f) : scalarG.IsLit s :=
  isLit_of_chars (fpText_char h) (by decide +kernel)

/-- C96, violated: minus a polynomial of positive degree is undefined, whatever the polynomial. -/
theorem C96_violated_fp_neg (hb : p ≤ 46341) {s : String} {f : (ZMod p)[X]} (hs : FpText p s.toList f) (hf : 0 < f.natDegree) :
    fpPOp p ["-", s] = ub := by
  obtain ⟨z, o, hz, ho, e⟩ := fpP_eq (p := p) hb ["-", s]
  rw [e]
  have C := (IntMod.cops_ref hp.out.two_le hb).weaken True
  have := (C94_fp hb).read hz (ws := []) (rest := []) (by simp) hs (by simp)
  rw [List.nil_append, List.append_nil] at this
  refine calc_neg (P := fun a => PRep (IntMod.Rep p) a f) (fp_isLit hs) ((sat_false.1 this).sat.mono fun r hr => ⟨hr.1, by rw [hr.2]⟩) fun a ha => ?_
  exact neg_ub C ha (by rw [← ha.deg]; exact hf)

example : fpPOp 5 ["-", "10"] = ub ∧ fpPOp 5 ["0", "-", "10"] = ok ["40".toList] := by decide +kernel

theorem fpPm_eq (hb : p ≤ 46341) (hM : M ≠ 0) {mm : CPoly IntMod} (hmm : PRep (IntMod.Rep p) mm M) (ts : List String) :
    ∃ zero one, CMod.Rep (IntMod.Rep p) M zero 0 ∧ CMod.Rep (IntMod.Rep p) M one 1 ∧
    fpPmOp mm ts = calcOp (cmodOps IntMod.cops) fpModIO zero one ts := by
  have C := IntMod.cops_ref hp.out.two_le hb
  have key : ∀ v : Int, InInt v → (fpPmPsub v mm).Ok fun r => CMod.Rep (IntMod.Rep p) M r (AdjoinRoot.mk M (Polynomial.C (v : ZMod p))) := by
    intro v hv
    unfold fpPmPsub
    refine sat_false.1 ?_
    exact (CPoly.psub_sat C hmm hv).bind fun r hr => CMod.mk'_sat C hr hmm hM
  obtain ⟨z, hz, hz'⟩ := key 0 (by unfold InInt; simp)
  obtain ⟨o, ho, ho'⟩ := key 1 (by unfold InInt; simp)
  refine ⟨z, o, by simpa using hz', by simpa using ho', ?_⟩
  unfold fpPmOp
  rw [hz, ok_bind, ho, ok_bind]

/-- C96: `fp_pm_op`, for any modulus other than zero; only the units divide. -/
theorem C96_fpmod_partial (hb : p ≤ 46341) (hM : M ≠ 0) {mm : CPoly IntMod} (hmm : PRep (IntMod.Rep p) mm M)
    {lit : String → Option (AdjoinRoot M)} {t : Tree} {ts : List String} (hd : Derives scalarG .Q t ts) (hv : Literals (FpRep M) lit t) :
    (NoNeg t → Exponents t → Answers False (FpRep M) (fpPmOp mm ts)
      (denSQ (unitSem (AdjoinRoot M)) lit intLit (CMod.ordM (fun x y => x.val < y.val) M) t)) ∧
    Answers True (FpRep M) (fpPmOp mm ts) (denSQ (unitSem (AdjoinRoot M)) lit intLit (CMod.ordM (fun x y => x.val < y.val) M) t) := by
  obtain ⟨z, o, hz, ho, e⟩ := fpPm_eq hb hM hmm ts
  rw [e]
  have C := IntMod.cops_ref hp.out.two_le hb
  refine ⟨fun hn hi => ?_, ?_⟩
  · exact answers (cmod_rref C fun h => ngm_sat C h) (C94_fpmod hb) hz ho hd hv (.inr hi) (.inl hn)
  · have C' := C.weaken True
    exact answers (cmod_rref C' fun h => negm_true C' h) (C94_fpmod hb) hz ho hd hv (.inl trivial) (.inr rfl)

example : fpPmOp ⟨2, [⟨1, 3⟩, ⟨0, 3⟩, ⟨1, 3⟩]⟩ ["10", "^", "2", "+", "1"] = ok ["00".toList] := by decide +kernel
example : fpPmOp ⟨2, [⟨1, 3⟩, ⟨0, 3⟩, ⟨1, 3⟩]⟩ ["1", "/", "10"] = ok ["20".toList] := by decide +kernel

/-- C96, violated: minus a residue that is not constant is undefined. -/
theorem C96_violated_fpmod_neg (hb : p ≤ 46341) (hM : M ≠ 0) {mm : CPoly IntMod} (hmm : PRep (IntMod.Rep p) mm M) {s : String}
    {f : (ZMod p)[X]} (hs : FpText p s.toList f) (hf : 0 < (f % M).natDegree) : fpPmOp mm ["-", s] = ub := by
  obtain ⟨z, o, hz, ho, e⟩ := fpPm_eq hb hM hmm ["-", s]
  rw [e]
  have C := (IntMod.cops_ref hp.out.two_le hb).weaken True
  have := (C94_fpmod (M := M) hb).read hz (ws := []) (rest := []) (by simp) ⟨f, hs, rfl⟩ (by simp)
  rw [List.nil_append, List.append_nil] at this
  refine calc_neg (P := fun a => CMod.Rep (IntMod.Rep p) M a (AdjoinRoot.mk M f)) (fp_isLit hs)
    ((sat_false.1 this).sat.mono fun r hr => ⟨hr.1, by rw [hr.2]⟩) fun a ha => ?_
  refine negm_ub C ha ?_
  obtain ⟨g, hg, hgd, hgx⟩ := ha.hr
  have : g = f % M := by
    rw [← CMod.mk_mod f, AdjoinRoot.mk_eq_mk] at hgx
    by_contra hne
    refine hne (sub_eq_zero.1 (eq_zero_of_dvd_of_degree_lt hgx (lt_of_le_of_lt (degree_sub_le _ _) (max_lt hgd ?_))))
    exact EuclideanDomain.mod_lt _ hM
  rw [← hg.deg, this]; exact hf

example : fpPmOp ⟨2, [⟨1, 3⟩, ⟨0, 3⟩, ⟨1, 3⟩]⟩ ["-", "10"] = ub := by decide +kernel

end Fp

/-! ### Polynomials over F_2^n, and residues -/

section F2n
open F2P
variable {m : (ZMod 2)[X]} [hm : Fact (Irreducible m)] {N : (AdjoinRoot m)[X]}

theorem f2n_psub {mm : F2P} (hc : Canon mm) (hmm : toPoly mm = m) :
    ((f2nPsub 0 mm).Ok fun r => PRep (F2Mod.Rep m) r 0) ∧ ((f2nPsub 1 mm).Ok fun r => PRep (F2Mod.Rep m) r 1) := by
  have hm0 : m ≠ 0 := hm.out.ne_zero
  have C := F2Mod.cops_ref hm0
  obtain ⟨z, hz, hz', _⟩ := F2Mod.mk'_ok (F2Mod.canon_ofInt 0).good hc hmm hm0
  obtain ⟨o, ho, ho', _⟩ := F2Mod.mk'_ok (F2Mod.canon_ofInt 1).good hc hmm hm0
  rw [show toPoly (F2P.ofInt 0) = 0 from toPoly_zero, map_zero] at hz'
  rw [show toPoly (F2P.ofInt 1) = 1 from toPoly_one, map_one] at ho'
  unfold f2nPsub
  rw [hz, ho]
  exact ⟨by simpa using sat_false.1 (CPoly.const_sat C hz'), by simpa using sat_false.1 (CPoly.const_sat C ho')⟩

theorem f2nP_eq {mm : F2P} (hc : Canon mm) (hmm : toPoly mm = m) (ts : List String) : ∃ zero one, PRep (F2Mod.Rep m) zero 0 ∧
    PRep (F2Mod.Rep m) one 1 ∧ f2nPOp mm ts = calcOp (cpolyOps F2Mod.cops) f2nIO zero one ts := by
  obtain ⟨⟨z, hz, hz'⟩, o, ho, ho'⟩ := f2n_psub hc hmm
  refine ⟨z, o, hz', ho', ?_⟩
  unfold f2nPOp
  rw [hz, ok_bind, ho, ok_bind]

/-- C96: `f2n_p_op`, over any field of `2 ^ n` elements. -/
theorem C96_f2n_partial {mm : F2P} (hc : Canon mm) (hmm : toPoly mm = m) {lit : String → Option (AdjoinRoot m)[X]} {t : Tree}
    {ts : List String} (hd : Derives scalarG .Q t ts) (hv : Literals (Colons (HexRep m)) lit t) :
    (NoNeg t → Exponents t → Answers False (Colons (HexRep m)) (f2nPOp mm ts)
      (denSQ (polySem (AdjoinRoot m)) lit intLit (polyLt (F2Mod.ordQ m)) t)) ∧
    Answers True (Colons (HexRep m)) (f2nPOp mm ts) (denSQ (polySem (AdjoinRoot m)) lit intLit (polyLt (F2Mod.ordQ m)) t) := by
  obtain ⟨z, o, hz, ho, e⟩ := f2nP_eq hc hmm ts
  rw [e]
  have C := F2Mod.cops_ref (m := m) hm.out.ne_zero
  refine ⟨fun hn hi => ?_, ?_⟩
  · exact answers (cpoly_rref C fun h => ng_sat C h) C94_f2n hz ho hd hv (.inr hi) (.inl hn)
  · have C' := C.weaken True
    exact answers (cpoly_rref C' fun h => neg_true C' h) C94_f2n hz ho hd hv (.inl trivial) (.inr rfl)

example : f2nPOp [0x13] ["1:2", "*", "1:3", "+", "f"] = ok ["1:1:9".toList] := by decide +kernel

theorem colons_chars {α : Type} {P : List Char → α → Prop} {Q : Char → Bool} (hP : ∀ t x, P t x → ∀ c ∈ t, Q c = true) (hQ : Q ':' = true)
    {ts : List (List Char)} {xs : List α} (h : List.Forall₂ P ts xs) : ∀ c ∈ List.intercalate [':'] ts, Q c = true := by
  induction h with
  | nil => intro c hc; simp at hc
  | @cons t x ts xs ht _ ih =>
    intro c hc
    rw [intercalate_cons] at hc
    rcases List.mem_append.1 hc with hc | hc
    · exact hP t x ht c hc
    · cases ts with
      | nil => simp at hc
      | cons s ts =>
        rw [intercalate_cons] at ih
        simp only [List.map_cons, List.flatten_cons, List.cons_append, List.mem_cons] at hc
        rcases hc with rfl | hc
        · exact hQ
        · exact ih c hc

theorem hexs_isLit {s : String} {f : (AdjoinRoot m)[X]} (h : Colons (HexRep m) s.toList f) : scalarG.IsLit s := by
  refine isLit_of_chars (P := fun c => (hexVal c).isSome || c == ':') ?_ (by decide +kernel)
  obtain ⟨ts, xs, _, h2, h3, _⟩ := h
  rw [h2]
  refine colons_chars (fun t x ht c hc => ?_) (by decide +kernel) h3
  obtain ⟨q, hq, _⟩ := ht
  simp [hq.2.1 c hc]

/-- C96, violated: minus a polynomial of positive degree is undefined. -/
theorem C96_violated_f2n_neg {mm : F2P} (hc : Canon mm) (hmm : toPoly mm = m) {s : String} {f : (AdjoinRoot m)[X]}
    (hs : Colons (HexRep m) s.toList f) (hf : 0 < f.natDegree) : f2nPOp mm ["-", s] = ub := by
  obtain ⟨z, o, hz, ho, e⟩ := f2nP_eq (m := m) hc hmm ["-", s]
  rw [e]
  have C := (F2Mod.cops_ref (m := m) hm.out.ne_zero).weaken True
  have := C94_f2n.read hz (ws := []) (rest := []) (by simp) hs (by simp)
  rw [List.nil_append, List.append_nil] at this
  refine calc_neg (P := fun a => PRep (F2Mod.Rep m) a f) (hexs_isLit hs) ((sat_false.1 this).sat.mono fun r hr => ⟨hr.1, by rw [hr.2]⟩) fun a ha => ?_
  exact neg_ub C ha (by rw [← ha.deg]; exact hf)

example : f2nPOp [0x13] ["-", "1:0"] = ub ∧ f2nPOp [0x13] ["0", "-", "1:0"] = ok ["1:0".toList] := by decide +kernel

theorem f2nPm_psub (hN : N ≠ 0) {mm : CPoly F2Mod} (hmm : PRep (F2Mod.Rep m) mm N) :
    ∃ z o, f2nPmPsub 0 mm = ok z ∧ f2nPmPsub 1 mm = ok o ∧ CMod.Rep (F2Mod.Rep m) N z 0 ∧ CMod.Rep (F2Mod.Rep m) N o 1 := by
  have C := F2Mod.cops_ref (m := m) hm.out.ne_zero
  obtain ⟨c, hc, hc'⟩ := sat_false.1 (CPoly.get_coeff_sat C hmm 0)
  rw [Nat.cast_zero] at hc
  obtain ⟨⟨z, hz, hz'⟩, o, ho, ho'⟩ := f2n_psub hc'.cm hc'.hm
  obtain ⟨zz, hzz, hzz'⟩ := sat_false.1 (CMod.mk'_sat C hz' hmm hN)
  obtain ⟨oo, hoo, hoo'⟩ := sat_false.1 (CMod.mk'_sat C ho' hmm hN)
  refine ⟨zz, oo, ?_, ?_, by simpa using hzz', by simpa using hoo'⟩ <;> unfold f2nPmPsub <;> rw [hc] <;> simp only [ok_bind, hz, ho, hzz, hoo]

theorem f2nPm_eq (hN : N ≠ 0) {mm : CPoly F2Mod} (hmm : PRep (F2Mod.Rep m) mm N) (ts : List String) :
    ∃ zero one, CMod.Rep (F2Mod.Rep m) N zero 0 ∧ CMod.Rep (F2Mod.Rep m) N one 1 ∧
    f2nPmOp mm ts = calcOp (cmodOps F2Mod.cops) f2nModIO zero one ts := by
  obtain ⟨z, o, hz, ho, hz', ho'⟩ := f2nPm_psub hN hmm
  refine ⟨z, o, hz', ho', ?_⟩
  unfold f2nPmOp
  rw [hz, ok_bind, ho, ok_bind]

/-- C96: `f2n_pm_op`, for any modulus other than zero; only the units divide. -/
theorem C96_f2nmod_partial (hN : N ≠ 0) {mm : CPoly F2Mod} (hmm : PRep (F2Mod.Rep m) mm N) {lit : String → Option (AdjoinRoot N)} {t : Tree}
    {ts : List String} (hd : Derives scalarG .Q t ts) (hv : Literals (fun t x => ∃ f, Colons (HexRep m) t f ∧ x = AdjoinRoot.mk N f) lit t) :
    (NoNeg t → Exponents t → Answers False (fun t x => ∃ f, Colons (HexRep m) t f ∧ x = AdjoinRoot.mk N f) (f2nPmOp mm ts)
      (denSQ (unitSem (AdjoinRoot N)) lit intLit (CMod.ordM (F2Mod.ordQ m) N) t)) ∧
    Answers True (fun t x => ∃ f, Colons (HexRep m) t f ∧ x = AdjoinRoot.mk N f) (f2nPmOp mm ts)
      (denSQ (unitSem (AdjoinRoot N)) lit intLit (CMod.ordM (F2Mod.ordQ m) N) t) := by
  obtain ⟨z, o, hz, ho, e⟩ := f2nPm_eq hN hmm ts
  rw [e]
  have C := F2Mod.cops_ref (m := m) hm.out.ne_zero
  refine ⟨fun hn hi => ?_, ?_⟩
  · exact answers (cmod_rref C fun h => ngm_sat C h) C94_f2nmod hz ho hd hv (.inr hi) (.inl hn)
  · have C' := C.weaken True
    exact answers (cmod_rref C' fun h => negm_true C' h) C94_f2nmod hz ho hd hv (.inl trivial) (.inr rfl)

example : f2nPmOp ⟨2, [⟨[2], [7]⟩, ⟨[1], [7]⟩, ⟨[1], [7]⟩]⟩ ["1:0", "*", "1:1"] = ok ["0:2".toList] := by decide +kernel

end F2n

/-! ### Polynomials over F_p^n, and residues -/

section Fpn
variable {p : ℕ} [hp : Fact p.Prime] {M : (ZMod p)[X]} [hM : Fact (Irreducible M)] {N : (AdjoinRoot M)[X]}

theorem fpn_psub (hb : p ≤ 46341) {mm : CPoly IntMod} (hmm : PRep (IntMod.Rep p) mm M) :
    ((fpnPsub 0 mm).Ok fun r => PRep (CMod.Rep (IntMod.Rep p) M) r 0) ∧
    ((fpnPsub 1 mm).Ok fun r => PRep (CMod.Rep (IntMod.Rep p) M) r 1) := by
  have C := IntMod.cops_ref hp.out.two_le hb
  have D := FpMod.copsNeg_ref (M := M) hb hM.out.ne_zero
  obtain ⟨e0, e1, r0, r1⟩ := fp_zero_one hp.out.two_le hb
  obtain ⟨c, hc, hc'⟩ := sat_false.1 (CPoly.get_coeff_sat C hmm 0)
  rw [Nat.cast_zero] at hc
  have key : ∀ (v : Int) (a : IntMod) (x : ZMod p), IntMod.mk' v p = ok a → IntMod.Rep p a x →
      (fpnPsub v mm).Ok fun r => PRep (CMod.Rep (IntMod.Rep p) M) r (Polynomial.C (AdjoinRoot.mk M (Polynomial.C x))) := by
    intro v a x h1 h2
    unfold fpnPsub
    rw [hc]
    simp only [ok_bind, hc'.1, h1]
    refine sat_false.1 ((CPoly.const_sat C h2).bind fun r hr => (CMod.mk'_sat C hr hmm hM.out.ne_zero).bind fun e he => ?_)
    have := CPoly.const_sat D he
    exact this
  exact ⟨by simpa using key 0 _ _ e0 r0, by simpa using key 1 _ _ e1 r1⟩

theorem fpnP_eq (hb : p ≤ 46341) {mm : CPoly IntMod} (hmm : PRep (IntMod.Rep p) mm M) (ts : List String) :
    ∃ zero one, PRep (CMod.Rep (IntMod.Rep p) M) zero 0 ∧ PRep (CMod.Rep (IntMod.Rep p) M) one 1 ∧
    fpnPOp mm ts = calcOp (cpolyOps FpMod.cops) fpnIO zero one ts := by
  obtain ⟨⟨z, hz, hz'⟩, o, ho, ho'⟩ := fpn_psub hb hmm
  refine ⟨z, o, hz', ho', ?_⟩
  unfold fpnPOp
  rw [hz, ok_bind, ho, ok_bind]

/-- C96: `fpn_p_op`, over any field of `p ^ n` elements.  Missing for the full property: subtraction of a polynomial of higher
degree negates coefficients (`C36`), which is undefined for those that are not in F_p, and unary minus. -/
theorem C96_fpn_partial (hb : p ≤ 46341) {mm : CPoly IntMod} (hmm : PRep (IntMod.Rep p) mm M) {lit : String → Option (AdjoinRoot M)[X]}
    {t : Tree} {ts : List String} (hd : Derives scalarG .Q t ts) (hv : Literals (Colons (FpRep M)) lit t) :
    Answers True (Colons (FpRep M)) (fpnPOp mm ts)
      (denSQ (polySem (AdjoinRoot M)) lit intLit (polyLt (CMod.ordM (fun x y => x.val < y.val) M)) t) := by
  obtain ⟨z, o, hz, ho, e⟩ := fpnP_eq hb hmm ts
  rw [e]
  have C := FpMod.cops_ref (M := M) hb hM.out.ne_zero
  exact answers (cpoly_rref C fun h => neg_true C h) (C94_fpn hb hM.out.ne_zero) hz ho hd hv (.inl trivial) (.inr rfl)

example : fpnPOp ⟨2, [⟨1, 3⟩, ⟨0, 3⟩, ⟨1, 3⟩]⟩ ["1:10", "*", "1:20"] = ok ["1:0:1".toList] := by decide +kernel

theorem fpns_isLit {s : String} {f : (AdjoinRoot M)[X]} (h : Colons (FpRep M) s.toList f) : scalarG.IsLit s := by
  refine isLit_of_chars (P := fun c => fpChar c || c == ':') ?_ (by decide +kernel)
  obtain ⟨ts, xs, _, h2, h3, _⟩ := h
  rw [h2]
  refine colons_chars (fun t x ht c hc => ?_) (by decide +kernel) h3
  obtain ⟨q, hq, _⟩ := ht
  simp [fpText_char hq c hc]

/-- C96, violated: minus a polynomial of positive degree is undefined. -/
theorem C96_violated_fpn_neg (hb : p ≤ 46341) {mm : CPoly IntMod} (hmm : PRep (IntMod.Rep p) mm M) {s : String} {f : (AdjoinRoot M)[X]}
    (hs : Colons (FpRep M) s.toList f) (hf : 0 < f.natDegree) : fpnPOp mm ["-", s] = ub := by
  obtain ⟨z, o, hz, ho, e⟩ := fpnP_eq hb hmm ["-", s]
  rw [e]
  have C := FpMod.cops_ref (M := M) hb hM.out.ne_zero
  have := (C94_fpn hb hM.out.ne_zero).read hz (ws := []) (rest := []) (by simp) hs (by simp)
  rw [List.nil_append, List.append_nil] at this
  refine calc_neg (P := fun a => PRep (CMod.Rep (IntMod.Rep p) M) a f) (fpns_isLit hs) ((sat_false.1 this).sat.mono fun r hr => ⟨hr.1, by rw [hr.2]⟩) fun a ha => ?_
  exact neg_ub C ha (by rw [← ha.deg]; exact hf)

example : fpnPOp ⟨2, [⟨1, 3⟩, ⟨0, 3⟩, ⟨1, 3⟩]⟩ ["-", "1:10"] = ub := by decide +kernel
example : fpnPOp ⟨2, [⟨1, 3⟩, ⟨0, 3⟩, ⟨1, 3⟩]⟩ ["1", "-", "10:0"] = ub := by decide +kernel

theorem fpnPm_psub (hb : p ≤ 46341) (hN : N ≠ 0) {mm : CPoly (CMod IntMod)} (hmm : PRep (CMod.Rep (IntMod.Rep p) M) mm N) :
    ∃ z o, fpnPmPsub 0 mm = ok z ∧ fpnPmPsub 1 mm = ok o ∧ CMod.Rep (CMod.Rep (IntMod.Rep p) M) N z 0 ∧
      CMod.Rep (CMod.Rep (IntMod.Rep p) M) N o 1 := by
  have D := FpMod.copsNeg_ref (M := M) hb hM.out.ne_zero
  obtain ⟨c, hc, hc'⟩ := sat_false.1 (CPoly.get_coeff_sat D hmm 0)
  rw [Nat.cast_zero] at hc
  obtain ⟨⟨z, hz, hz'⟩, o, ho, ho'⟩ := fpn_psub hb hc'.hm
  have key : ∀ {r f}, PRep (CMod.Rep (IntMod.Rep p) M) r f → (CMod.mk' FpMod.cops r mm).Ok fun a =>
      CMod.Rep (CMod.Rep (IntMod.Rep p) M) N a (AdjoinRoot.mk N f) := by
    intro r f hr
    exact fpnm_mk hb hN r f hr mm hmm
  obtain ⟨zz, hzz, hzz'⟩ := key hz'
  obtain ⟨oo, hoo, hoo'⟩ := key ho'
  have hc2 : CPoly.get_coeff FpMod.cops mm 0 = ok c := hc
  refine ⟨zz, oo, ?_, ?_, by simpa using hzz', by simpa using hoo'⟩ <;> unfold fpnPmPsub <;> rw [hc2] <;> simp only [ok_bind, hz, ho, hzz, hoo]

theorem fpnPm_eq (hb : p ≤ 46341) (hN : N ≠ 0) {mm : CPoly (CMod IntMod)} (hmm : PRep (CMod.Rep (IntMod.Rep p) M) mm N) (ts : List String) :
    ∃ zero one, CMod.Rep (CMod.Rep (IntMod.Rep p) M) N zero 0 ∧ CMod.Rep (CMod.Rep (IntMod.Rep p) M) N one 1 ∧
    fpnPmOp mm ts = calcOp (cmodOps FpMod.cops) fpnModIO zero one ts := by
  obtain ⟨z, o, hz, ho, hz', ho'⟩ := fpnPm_psub hb hN hmm
  refine ⟨z, o, hz', ho', ?_⟩
  unfold fpnPmOp
  rw [hz, ok_bind, ho, ok_bind]

/-- C96: `fpn_pm_op`, for any modulus other than zero; only the units divide.  Missing for the full property: as for `fpn_p_op`. -/
theorem C96_fpnmod_partial (hb : p ≤ 46341) (hN : N ≠ 0) {mm : CPoly (CMod IntMod)} (hmm : PRep (CMod.Rep (IntMod.Rep p) M) mm N)
    {lit : String → Option (AdjoinRoot N)} {t : Tree} {ts : List String} (hd : Derives scalarG .Q t ts)
    (hv : Literals (fun t x => ∃ f, Colons (FpRep M) t f ∧ x = AdjoinRoot.mk N f) lit t) :
    Answers True (fun t x => ∃ f, Colons (FpRep M) t f ∧ x = AdjoinRoot.mk N f) (fpnPmOp mm ts)
      (denSQ (unitSem (AdjoinRoot N)) lit intLit (CMod.ordM (CMod.ordM (fun x y => x.val < y.val) M) N) t) := by
  obtain ⟨z, o, hz, ho, e⟩ := fpnPm_eq hb hN hmm ts
  rw [e]
  have C := FpMod.cops_ref (M := M) hb hM.out.ne_zero
  exact answers (cmod_rref C fun h => negm_true C h) (C94_fpnmod hb) hz ho hd hv (.inl trivial) (.inr rfl)

example : fpnPmOp ⟨1, [⟨⟨0, [⟨1, 3⟩]⟩, ⟨2, [⟨1, 3⟩, ⟨0, 3⟩, ⟨1, 3⟩]⟩⟩, ⟨⟨0, [⟨1, 3⟩]⟩, ⟨2, [⟨1, 3⟩, ⟨0, 3⟩, ⟨1, 3⟩]⟩⟩]⟩
    ["10:0", "*", "10:2"] = ok ["12".toList] := by decide +kernel

end Fpn

end Expr96
end Spffl.Props
