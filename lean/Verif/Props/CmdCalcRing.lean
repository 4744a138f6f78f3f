import Verif.Proof.DomInst
import Verif.Props.CmdCalc

/-!
# C112: the calculators for matrices over the integers and over polynomials, and the other matrix calculators
-/

namespace Spffl.Props.Cmd112
open Res Scan Polynomial Spffl.Cmd Spffl.Expr Spffl.VText PText93 VText94 Expr90 Expr96 Expr98 Cmd109
open F2P (Canon toPoly)
open CPoly (PRep)
open Cmd101 (IsHex)

/-! ### What is claimed -/

/-- All exponents are positive. -/
def Positive (t : Tree) : Prop := ∀ s k, (true, s) ∈ t.lits false → intLit s = some k → 1 ≤ k

open Classical in
/-- What is claimed of the calculator `c` for matrices over a domain.  Where `U`, the behaviour may be undefined instead; if not `V`, then only
expressions without unary minus are covered. -/
structure OverDomain {R : Type} [CommRing R] (U V : Prop) (Text : List Char → R → Prop) (files : String → Option (List Char))
    (c : List (List Char) → Cmd Unit) : Prop where
  /-- Expressions with `+`, `-`, `*`, `^` to a positive power, `transpose`, `==` and `!=` have their value. -/
  ring : ∀ {t ts k}, Derives matG .Q t ts → Tail k → MLiterals Text files t → Expr.Plain t → NoDet t → Positive t → (¬ V → ¬ Minus t) →
    CMAnswers U Text k (c (argv ts k)) (MDen (MLit Text files) false t)
  /-- The determinant is printed if it is a unit; otherwise 0 is printed, whatever it is.  It is an error only for two rows or more. -/
  det : ∀ {s ts k n} {M : Matrix (Fin n) (Fin n) R}, Derives matG .Q (.un .det (.lit s)) ts → Tail k → MLit Text files s (some (.mat M)) →
    CMAnswers U Text k (c (argv ts k)) fun r => r = some (.scalar (if IsUnit M.det then M.det else 0)) ∨ (2 ≤ n ∧ r = none)
  /-- If the first entry of the first column that is not zero is not a unit, then the determinant is always an error. -/
  refused : ∀ {s ts k n} {M : Matrix (Fin (n + 2)) (Fin (n + 2)) R} {i}, Derives matG .Q (.un .det (.lit s)) ts → Tail k →
    MLit Text files s (some (.mat M)) → (∀ j, j < i → M j 0 = 0) → M i 0 ≠ 0 → ¬ IsUnit (M i 0) → CMAnswers U Text k (c (argv ts k)) (· = none)
  /-- In any expression the determinants may be wrong in this way, and everything else is right. -/
  value : ∀ {t ts k}, Derives matG .Q t ts → Tail k → MLiterals Text files t → Expr.Plain t → Positive t → (¬ V → ¬ Minus t) →
    CMAnswers U Text k (c (argv ts k)) (RDen (MLit Text files) false t)

/-- What is claimed where all entries are constants: all operators have their value, those with eliminations included. -/
structure Constants {K : Type} [Field K] (U V : Prop) (Text : List Char → K[X] → Prop) (files : String → Option (List Char))
    (c : List (List Char) → Cmd Unit) : Prop where
  all : ∀ {t ts k}, Derives matG .Q t ts → Tail k → MLiterals (fun w x => Text w (C x)) files t → (¬ U → Exponents t) → (¬ V → ¬ Minus t) →
    CMAnswers U (fun w x => Text w (C x)) k (c (argv ts k)) (MDen (MLit (fun w x => Text w (C x)) files) false t)

section General
variable {U V : Prop} {α R : Type} [CommRing R] {O : TOps α} {E : EltIO α} {rep : α → R → Prop} {Text : List Char → R → Prop} {zero one : α}
  {files : String → Option (List Char)} {c : List (List Char) → Cmd Unit}

theorem pos_read {t : Tree} (h : Positive t) (s : String) (n : ℤ) (hs : (true, s) ∈ t.lits false) (hr : Scan.readInt s.toList = ok n) : 1 ≤ n :=
  h s n hs (read_lit hr)

theorem over_domain (F : ∀ {t ts k}, Derives matG .Q t ts → Tail k → Follows [] k (matOp O E files zero one ts) (c (argv ts k)))
    (H : DomRef U O rep) (S : EltSpec U E rep Text) (N : V → NegRef U O rep) (h0 : rep zero 0) : OverDomain U V Text files c := by
  have value : ∀ {t ts k}, Derives matG .Q t ts → Tail k → MLiterals Text files t → Expr.Plain t → Positive t → (¬ V → ¬ Minus t) →
      CMAnswers U Text k (c (argv ts k)) (RDen (MLit Text files) false t) := by
    intro t ts k hd hk hl hp hx hm
    refine of_manswers (F hd hk) (m_answers (matOp_gen S hd (dom_eval_out H t false hp (fun h => ?_) (fun s hs => matScan_out S h0 (hl s hs))
      (pos_read hx))))
    by_cases hV : V
    · exact N hV
    · exact absurd h (hm hV)
  have det : ∀ {s ts k n} {M : Matrix (Fin n) (Fin n) R} {D : Option (MVal R) → Prop}, Derives matG .Q (.un .det (.lit s)) ts → Tail k →
      MLit Text files s (some (.mat M)) →
      (∀ {A : TMat α}, 0 < n → MRep rep A M → Out U (TMat.det O A) (fun a v => MARep rep (.scalar a) v) D) →
      CMAnswers U Text k (c (argv ts k)) D := by
    intro s ts k n M D hd hk hl h
    refine of_manswers (F hd hk) (m_answers (matOp_gen S hd ?_))
    show Out U ((matScan E files zero s >>= fun a => ok (MAtom.mat a)) >>= fun a => matUn (matOps O zero one) .det a) _ _
    refine (matScan_lit S h0 hl).bind (fun a v _ ha hv => ?_) fun h => nomatch h
    cases hv
    cases a with
    | mat A =>
      obtain ⟨hm, hn, hA⟩ := ha
      show Out U (TMat.det O A >>= fun d => ok (MAtom.scalar d)) _ _
      exact (h hm hA).bind (fun b v _ hb hv => ⟨v, hb, hv⟩) id
    | scalar a => exact ha.elim
    | int a => exact ha.elim
  refine ⟨fun hd hk hl hp hn hx hm => ?_, fun {s ts k n M} hd hk hl => det hd hk hl fun {A} hn hA => ?_,
    fun {s ts k n M i} hd hk hl h1 h2 h3 => det hd hk hl fun {A} hn hA => .of_throws (det_refused H hA h1 h2 h3) rfl, value⟩
  · rcases value hd hk hl hp hx hm with ⟨w, v, h1, h2, h3⟩ | ⟨h1, h2⟩ | h
    · exact .inl ⟨w, v, h1, h2.den hn, h3⟩
    · exact .inr (.inl ⟨h1, h2.den hn⟩)
    · exact .inr (.inr h)
  · have := det_dom H hn hA
    revert this
    generalize TMat.det O A = r
    intro this
    cases r with
    | ok r => exact ⟨.scalar _, this, .inl rfl⟩
    | throw => exact .inr ⟨this, rfl⟩
    | ub => exact this
    | timeout => exact this

/-- C112, violated: the determinant of a matrix of one entry that is neither zero nor a unit is printed as 0. -/
theorem C112_violated_det (H : OverDomain U V Text files c) {s : String} {ts k : List String} {x : R} (hd : Derives matG .Q (.un .det (.lit s)) ts)
    (hk : Tail k) (hs : MLit Text files s (some (.mat (Matrix.of fun (_ _ : Fin 1) => x)))) (h0 : x ≠ 0) (hx : ¬ IsUnit x) :
    CMAnswers U Text k (c (argv ts k)) (· = some (.scalar 0)) ∧ (Matrix.of fun (_ _ : Fin 1) => x).det ≠ 0 := by
  have e : (Matrix.of fun (_ _ : Fin 1) => x).det = x := by simp
  refine ⟨?_, by rwa [e]⟩
  have := H.det hd hk hs
  rw [e, if_neg hx] at this
  rcases this with ⟨w, v, h1, h2 | ⟨h2, -⟩, h3⟩ | ⟨h1, h2 | ⟨h2, -⟩⟩ | h
  · exact .inl ⟨w, v, h1, h2, h3⟩
  · omega
  · cases h2
  · omega
  · exact .inr (.inr h)

theorem const_spec {K : Type} [Field K] {rep : α → K[X] → Prop} {Text : List Char → K[X] → Prop} (S : EltSpec U E rep Text) :
    EltSpec U E (fun a x => rep a (C x)) fun w x => Text w (C x) where
  sub h := by simpa using S.sub (by simpa using h)
  read h := fun hw ht hr => S.read (by simpa using h) hw ht hr
  print h := S.print h
  clean h := S.clean h
  blanks h := fun hw => S.blanks (by simpa using h) hw

theorem constants {K : Type} [Field K] {rep : α → K[X] → Prop} {Text : List Char → K[X] → Prop}
    (F : ∀ {t ts k}, Derives matG .Q t ts → Tail k → Follows [] k (matOp O E files zero one ts) (c (argv ts k)))
    (H : EltRef U O rep) (S : EltSpec U E rep Text) (N : V → NegRef U O rep) (h0 : rep zero 0) (h1 : rep one 1) : Constants U V Text files c := by
  refine ⟨fun {t ts k} hd hk hl hi hm => of_manswers (F hd hk) (C98_matrix (const_ref C H) (const_spec S) (by simpa using h0) (by simpa using h1) (fun h => ?_) hd hl ?_)⟩
  · by_cases hV : V
    · exact ⟨fun ha => by simpa using (N hV).neg ha⟩
    · exact absurd h (hm hV)
  · by_cases hU : U
    · exact .inl hU
    · exact .inr (hi hU)

end General

/-! ### Integers -/

variable {files : String → Option (List Char)} {t : Tree} {ts k : List String}

/-- C112, z_mat_op: where no `int` overflows, and no divisor is zero. -/
theorem C112_z_mat_op_partial : OverDomain True True (fun t n => IntWord t n ∧ InInt n) files (z_mat_op files) := by
  refine over_domain (O := intTops) (E := intIO) (zero := 0) (one := 1) (fun hd hk => ?_) int_dom (spec_weaken C94_int True) (fun _ => int_neg)
    ⟨rfl, by decide⟩
  exact mat_follows (0, 1) hd hk

/-! ### Polynomials over F_2 -/

theorem f2_spec : EltSpec True f2IO F2P.WR HexWord where
  sub := by
    rintro z ⟨hz, hz0⟩
    refine ((F2P.sub_ok hz.1).mono fun r hr => ⟨hr.2.good, ?_⟩).sat
    rw [hr.1, sub_self]
  read := by
    rintro z - ws t x rest hw ⟨h1, h2, h3⟩ hr
    obtain ⟨⟨r, f, s⟩, h, h4, h5, h6, h7⟩ := F2P.read_ok hw h1 h2 (rest := rest) (fun c hc => blank_hex hr c hc)
    dsimp only at h4 h5 h6 h7
    subst h6 h7
    show Sat True (F2P.read _ >>= fun r => ok (r.1, _)) _
    rw [h, ok_bind]
    exact ⟨⟨h5.good, F2P.nval_inj (h4.trans h3.symm)⟩, rfl⟩
  print := by
    rintro a x ⟨ha, rfl⟩
    exact ⟨_, F2P.print_ok ha.1, F2P.hexOf_ne_nil _, F2P.allHex_hexOf _, (F2P.hexNum_hexOf _).symm⟩
  clean h := ⟨h.1, fun c hc => hex_plain (h.2.1 c hc)⟩
  blanks := by
    rintro z - ws hw
    obtain ⟨r, h1, h2⟩ := F2P.read_fail (rest := []) hw (by simp)
    rw [List.append_nil] at h1
    show Sat True (F2P.read _ >>= fun r => ok (r.1, _)) _
    rw [h1, ok_bind]
    exact h2

/-- C112, f2_p_mat_op: where no product starts with a zero of several words (`C96_violated_f2_zero`). -/
theorem C112_f2_p_mat_op_partial : OverDomain True True HexWord files (f2_p_mat_op files) ∧ Constants True True HexWord files (f2_p_mat_op files) := by
  have F : ∀ {t ts k}, Derives matG .Q t ts → Tail k →
      Follows [] k (matOp F2P.edops.toTOps f2IO files F2P.zero F2P.one ts) (f2_p_mat_op files (argv ts k)) :=
    fun hd hk => mat_follows (F2P.zero, F2P.one) hd hk
  exact ⟨over_domain F f2_dom f2_spec (fun _ => f2_negRef) f2_zero_one.1,
    constants F f2_dom.toEltRef f2_spec (fun _ => f2_negRef) f2_zero_one.1 f2_zero_one.2⟩

/-! ### Polynomials over F_p, F_2^n and F_p^n -/

section fp
variable {p : ℕ} [hp : Fact p.Prime] {x : List Char}

/-- C112, fp_p_mat_op, for any prime up to 46341.  With unary minus (or `kerbas`) the behaviour may be undefined. -/
theorem C112_fp_p_mat_op (hb : p ≤ 46341) (hx : IsInt x p) :
    (OverDomain False False (FpText p) files (fun r => fp_p_mat_op files (x :: r)) ∧
      Constants False False (FpText p) files (fun r => fp_p_mat_op files (x :: r))) ∧
    OverDomain True True (FpText p) files (fun r => fp_p_mat_op files (x :: r)) ∧
      Constants True True (FpText p) files (fun r => fp_p_mat_op files (x :: r)) := by
  obtain ⟨e0, e1, r0, r1⟩ := fp_zero_one hp.out.two_le hb
  have H := IntMod.cops_ref hp.out.two_le hb
  obtain ⟨z, hz, hz'⟩ := sat_false.1 (CPoly.const_sat H r0)
  obtain ⟨o, ho, ho'⟩ := sat_false.1 (CPoly.const_sat H r1)
  rw [map_zero] at hz'
  rw [map_one] at ho'
  have F : ∀ {t ts k}, Derives matG .Q t ts → Tail k →
      Follows [] k (matOp (CPoly.edops IntMod.cops ⟨0, 1⟩).toTOps fpIO files z o ts) (fp_p_mat_op files (x :: argv ts k)) := by
    intro t ts k hd hk
    have e : fp_p_mat_op files (x :: argv ts k) = _ := skip (intArg_prints hx) _
    rw [e]
    show Follows _ _ _ (lift (pair _ _) >>= _)
    unfold pair
    rw [e0, ok_bind, hz, ok_bind, e1, ok_bind, ho, ok_bind, lift_ok, pure_bind]
    exact mat_follows (z, o) hd hk
  exact ⟨⟨over_domain F (cpoly_dom H) (C94_fp hb) False.elim hz', constants F (cpoly_dom H).toEltRef (C94_fp hb) False.elim hz' ho'⟩,
    over_domain F (cpoly_dom (H.weaken True)) (spec_weaken (C94_fp hb) True) (fun _ => cpoly_negRef (H.weaken True)) hz',
    constants F (cpoly_dom (H.weaken True)).toEltRef (spec_weaken (C94_fp hb) True) (fun _ => cpoly_negRef (H.weaken True)) hz' ho'⟩

end fp

section f2n
variable {m : (ZMod 2)[X]} [hm : Fact (Irreducible m)] {x y : List Char}

/-- C112, f2n_p_mat_op, for any irreducible modulus.  With unary minus (or `kerbas`) the behaviour may be undefined. -/
theorem C112_f2n_p_mat_op (hx : IsHex x m) :
    (OverDomain False False (Colons (HexRep m)) files (fun r => f2n_p_mat_op files (x :: r)) ∧
      Constants False False (Colons (HexRep m)) files (fun r => f2n_p_mat_op files (x :: r))) ∧
    OverDomain True True (Colons (HexRep m)) files (fun r => f2n_p_mat_op files (x :: r)) ∧
      Constants True True (Colons (HexRep m)) files (fun r => f2n_p_mat_op files (x :: r)) := by
  obtain ⟨mm, h1, h2, h3⟩ := Cmd103.par hx
  have H := F2Mod.cops_ref (m := m) hm.out.ne_zero
  obtain ⟨⟨z, hz, hz'⟩, o, ho, ho'⟩ := f2n_psub h2 h3
  have F : ∀ {t ts k}, Derives matG .Q t ts → Tail k →
      Follows [] k (matOp (CPoly.edops F2Mod.cops ⟨F2P.zero, F2P.one⟩).toTOps f2nIO files z o ts) (f2n_p_mat_op files (x :: argv ts k)) := by
    intro t ts k hd hk
    have e : f2n_p_mat_op files (x :: argv ts k) = _ := skip h1 _
    rw [e]
    show Follows _ _ _ (lift (pair _ _) >>= _)
    unfold pair
    rw [hz, ok_bind, ho, ok_bind, lift_ok, pure_bind]
    exact mat_follows (z, o) hd hk
  exact ⟨⟨over_domain F (cpoly_dom H) C94_f2n False.elim hz', constants F (cpoly_dom H).toEltRef C94_f2n False.elim hz' ho'⟩,
    over_domain F (cpoly_dom (H.weaken True)) (spec_weaken C94_f2n True) (fun _ => cpoly_negRef (H.weaken True)) hz',
    constants F (cpoly_dom (H.weaken True)).toEltRef (spec_weaken C94_f2n True) (fun _ => cpoly_negRef (H.weaken True)) hz' ho'⟩

/-- A text of a residue class modulo `N`. -/
abbrev ClassText {K : Type} [Field K] (Text : List Char → K → Prop) (N : K[X]) (w : List Char) (x : AdjoinRoot N) : Prop :=
  ∃ f, Colons Text w f ∧ x = AdjoinRoot.mk N f

variable {N : (AdjoinRoot m)[X]} [hN : Fact (Irreducible N)]

/-- C112, f2n_pm_mat_op: matrices over the field of residues, for irreducible moduli.  With unary minus or `kerbas` the behaviour may be
undefined. -/
theorem C112_f2n_pm_mat_op_partial (hx : IsHex x m) (hy : Cmd103.F2nText m y N) (hd : Derives matG .Q t ts) (hk : Tail k)
    (hl : MLiterals (ClassText (HexRep m) N) files t) :
    (¬ Minus t → Exponents t → CMAnswers False (ClassText (HexRep m) N) k (f2n_pm_mat_op files (x :: y :: argv ts k))
      (MDen (MLit (ClassText (HexRep m) N) files) false t)) ∧
    CMAnswers True (ClassText (HexRep m) N) k (f2n_pm_mat_op files (x :: y :: argv ts k)) (MDen (MLit (ClassText (HexRep m) N) files) false t) := by
  obtain ⟨mm, h1, h2⟩ := Cmd106.n_par hx hy
  have H := F2Mod.cops_ref (m := m) hm.out.ne_zero
  obtain ⟨z, o, hz, ho, hz', ho'⟩ := f2nPm_psub hN.out.ne_zero h2
  have F : Follows [] k (matOp f2nModTops f2nModIO files z o ts) (f2n_pm_mat_op files (x :: y :: argv ts k)) := by
    have e : f2n_pm_mat_op files (x :: y :: argv ts k) = _ := skip h1 _
    rw [e]
    show Follows _ _ _ (lift (pair _ _) >>= _)
    unfold pair
    rw [hz, ok_bind, ho, ok_bind, lift_ok, pure_bind]
    exact mat_follows (z, o) hd hk
  have N' : NegRef True f2nModTops (CMod.Rep (F2Mod.Rep m) N) := ⟨negm_true (H.weaken True)⟩
  exact ⟨fun hn hi => of_manswers F (C98_matrix (cmod_elt H) C94_f2nmod hz' ho' (fun h => absurd h hn) hd hl (.inr hi)),
    of_manswers F (C98_matrix (cmod_elt (H.weaken True)) (spec_weaken C94_f2nmod True) hz' ho' (fun _ => N') hd hl (.inl trivial))⟩

/-- C112, f2n_pm_vec_op: vectors of one length. -/
theorem C112_f2n_pm_vec_op_partial (hx : IsHex x m) (hy : Cmd103.F2nText m y N) {n : ℕ} (hn : 0 < n) {lit : String → Option (Fin n → AdjoinRoot N)}
    (hd : Derives vecG .Q t ts) (hk : Tail k) (hl : VLiterals (ClassText (HexRep m) N) lit t) (hi : Exponents t) :
    (¬ Minus t → CVAnswers False (ClassText (HexRep m) N) k (f2n_pm_vec_op (x :: y :: argv ts k)) (vden lit false t)) ∧
    CVAnswers True (ClassText (HexRep m) N) k (f2n_pm_vec_op (x :: y :: argv ts k)) (vden lit false t) := by
  obtain ⟨mm, h1, h2⟩ := Cmd106.n_par hx hy
  have H := F2Mod.cops_ref (m := m) hm.out.ne_zero
  obtain ⟨z, o, hz, ho, hz', ho'⟩ := f2nPm_psub hN.out.ne_zero h2
  have F : Follows [] k (vecOp f2nModTops (CMod.exp F2Mod.cops) f2nModIO z ts) (f2n_pm_vec_op (x :: y :: argv ts k)) := by
    have e : f2n_pm_vec_op (x :: y :: argv ts k) = _ := skip h1 _
    rw [e]
    show Follows _ _ _ (lift (pair _ _) >>= _)
    unfold pair
    rw [hz, ok_bind, ho, ok_bind, lift_ok, pure_bind]
    exact vec_follows _ hd hk
  have N' : NegRef True f2nModTops (CMod.Rep (F2Mod.Rep m) N) := ⟨negm_true (H.weaken True)⟩
  have hx := fun s n (hs : (true, s) ∈ t.lits false) hr (e : n = INT_MIN) => int_min (U := False) (.inr hi) s n hs hr e
  exact ⟨fun h => of_vanswers F (C98_vector (cmod_elt H) C94_f2nmod hz' hn (cmod_pow H) (fun h' => absurd h' h) hd hl hx),
    of_vanswers F (C98_vector (cmod_elt (H.weaken True)) (spec_weaken C94_f2nmod True) hz' hn (cmod_pow (H.weaken True)) (fun _ => N') hd hl hx)⟩

end f2n

section fpn
variable {p : ℕ} [hp : Fact p.Prime] {M : (ZMod p)[X]} [hM : Fact (Irreducible M)] {x y z : List Char}

/-- C112, fpn_p_mat_op, for any prime up to 46341 and any irreducible modulus; the difference of polynomials may be undefined
(`C96_fpn_partial`). -/
theorem C112_fpn_p_mat_op_partial (hb : p ≤ 46341) (hx : IsInt x p) (hy : FpDenotes p y M) :
    OverDomain True True (Colons (FpRep M)) files (fun r => fpn_p_mat_op files (x :: y :: r)) ∧
      Constants True True (Colons (FpRep M)) files (fun r => fpn_p_mat_op files (x :: y :: r)) := by
  obtain ⟨mm, h1, h2⟩ := Cmd106.fp_par hb hx hy
  have H := FpMod.cops_ref (M := M) hb hM.out.ne_zero
  obtain ⟨⟨z, hz, hz'⟩, o, ho, ho'⟩ := fpn_psub hb h2
  have F : ∀ {t ts k}, Derives matG .Q t ts → Tail k →
      Follows [] k (matOp (CPoly.edops FpMod.cops FpMod.cops.dflt).toTOps fpnIO files z o ts) (fpn_p_mat_op files (x :: y :: argv ts k)) := by
    intro t ts k hd hk
    have e : fpn_p_mat_op files (x :: y :: argv ts k) = _ := skip h1 _
    rw [e]
    show Follows _ _ _ (lift (pair _ _) >>= _)
    unfold pair
    rw [hz, ok_bind, ho, ok_bind, lift_ok, pure_bind]
    exact mat_follows (z, o) hd hk
  have S := spec_weaken (C94_fpn (p := p) hb hM.out.ne_zero) True
  exact ⟨over_domain F (cpoly_dom H) S (fun _ => cpoly_negRef H) hz', constants F (cpoly_dom H).toEltRef S (fun _ => cpoly_negRef H) hz' ho'⟩

variable {N : (AdjoinRoot M)[X]} [hN : Fact (Irreducible N)]

/-- C112, fpn_pm_mat_op: matrices over the field of residues, for irreducible moduli; differences may be undefined. -/
theorem C112_fpn_pm_mat_op_partial (hb : p ≤ 46341) (hx : IsInt x p) (hy : FpDenotes p y M) (hz : Cmd108.FpnText M z N) (hd : Derives matG .Q t ts)
    (hk : Tail k) (hl : MLiterals (ClassText (FpRep M) N) files t) :
    CMAnswers True (ClassText (FpRep M) N) k (fpn_pm_mat_op files (x :: y :: z :: argv ts k)) (MDen (MLit (ClassText (FpRep M) N) files) false t) := by
  obtain ⟨mm, h1, h2⟩ := fpn_pm_par hb hx hy hz
  have H := FpMod.cops_ref (M := M) hb hM.out.ne_zero
  obtain ⟨z', o, hz', ho, rz, ro⟩ := fpnPm_psub hb hN.out.ne_zero h2
  have F : Follows [] k (matOp fpnModTops fpnModIO files z' o ts) (fpn_pm_mat_op files (x :: y :: z :: argv ts k)) := by
    have e : fpn_pm_mat_op files (x :: y :: z :: argv ts k) = _ := skip h1 _
    rw [e]
    show Follows _ _ _ (lift (pair _ _) >>= _)
    unfold pair
    rw [hz', ok_bind, ho, ok_bind, lift_ok, pure_bind]
    exact mat_follows (z', o) hd hk
  have N' : NegRef True fpnModTops (CMod.Rep (CMod.Rep (IntMod.Rep p) M) N) := ⟨negm_true H⟩
  exact of_manswers F (C98_matrix (cmod_elt H) (spec_weaken (C94_fpnmod hb) True) rz ro (fun _ => N') hd hl (.inl trivial))

end fpn

/-! ### Arguments before the expression -/

/-- C112: an argument before the expression that is missing or cannot be read: status 1 and nothing printed. -/
theorem C112_usage (files : String → Option (List Char)) (x y z : List Char) (r : List (List Char)) :
    (Exits (fp_p_mat_op files []) [] ∧ (NotInt x → Exits (fp_p_mat_op files (x :: r)) [])) ∧
    (Exits (f2n_p_mat_op files []) [] ∧ ((∀ f, ¬ IsHex x f) → Exits (f2n_p_mat_op files (x :: r)) [])) ∧
    (Exits (fpn_p_mat_op files []) [] ∧ Exits (fpn_p_mat_op files [x]) [] ∧ (NotInt x → Exits (fpn_p_mat_op files (x :: y :: r)) []) ∧
      ∀ (p : ℕ) [Fact p.Prime], p ≤ 46341 → IsInt x p → Cmd102.FpBad p y → Exits (fpn_p_mat_op files (x :: y :: r)) []) ∧
    (∀ c ∈ [f2n_pm_mat_op files, f2n_pm_vec_op], Exits (c []) [] ∧ Exits (c [x]) [] ∧ ((∀ f, ¬ IsHex x f) → Exits (c (x :: y :: r)) []) ∧
      ∀ m, IsHex x m → Irreducible m → Cmd103.F2nBad m y → Exits (c (x :: y :: r)) []) ∧
    (Exits (fpn_pm_mat_op files []) [] ∧ Exits (fpn_pm_mat_op files [x]) [] ∧ Exits (fpn_pm_mat_op files [x, y]) [] ∧
      (NotInt x → Exits (fpn_pm_mat_op files (x :: y :: z :: r)) []) ∧
      ∀ (p : ℕ) [Fact p.Prime], p ≤ 46341 → IsInt x p → Cmd102.FpBad p y → Exits (fpn_pm_mat_op files (x :: y :: z :: r)) []) := by
  refine ⟨⟨exits_exit1, fun h => (intArg_exits h).bind⟩, ⟨exits_exit1, fun h => (Cmd101.readArg_no h : Exits (f2Arg x) []).bind⟩,
    ⟨exits_exit1, exits_exit1, fun h => ((intArg_exits h).bind : Exits (fpPmArg x y) []).bind,
      fun p _ h46 h1 h2 => (Cmd106.fp_par_bad h46 h1 h2).bind⟩, fun c hc => ?_,
    exits_exit1, exits_exit1, exits_exit1,
    fun h => (((intArg_exits h).bind : Exits (fpPmArg x y) []).bind : Exits (fpnPmArg x y z) []).bind,
    fun p _ h46 h1 h2 => ((Cmd106.fp_par_bad h46 h1 h2).bind : Exits (fpnPmArg x y z) []).bind⟩
  simp only [List.mem_cons, List.not_mem_nil, or_false] at hc
  have k1 : (∀ f, ¬ IsHex x f) → Exits (f2nPmArg x y) [] := fun h => (Cmd101.readArg_no h : Exits (f2Arg x) []).bind
  have k2 : ∀ m, IsHex x m → Irreducible m → Cmd103.F2nBad m y → Exits (f2nPmArg x y) [] := fun m h1 h2 h3 => by
    have : Fact (Irreducible m) := ⟨h2⟩
    obtain ⟨im, e1, e2, e3⟩ := Cmd103.par h1
    exact e1.then_exits (Cmd103.readArg_bad e2 e3 h3)
  rcases hc with rfl | rfl <;> exact ⟨exits_exit1, exits_exit1, fun h => (k1 h).bind, fun m h1 h2 h3 => (k2 m h1 h2 h3).bind⟩

/-! ### Examples -/

section Examples

private def a (l : List String) : List (List Char) := l.map String.toList
private def noFiles : String → Option (List Char) := fun _ => none

-- determinants and ranks of integer matrices that are wrong: 5, -2, 2 and 1 are right
example : (z_mat_op noFiles (a ["det", "[[5]]"])).run = ok ("0\n".toList, .val ()) ∧
    (z_mat_op noFiles (a ["det", "[[1 2][3 4]]"])).run = ok ("0\n".toList, .val ()) ∧
    (z_mat_op noFiles (a ["rank", "[[1 2][3 4]]"])).run = ok ("1\n".toList, .val ()) ∧
    (z_mat_op noFiles (a ["rank", "[[2 1]]"])).run = ok ("0\n".toList, .val ()) := by decide +kernel
example : (!![5] : Matrix (Fin 1) (Fin 1) ℤ).det = 5 ∧ (!![1, 2; 3, 4] : Matrix (Fin 2) (Fin 2) ℤ).det = -2 := by
  constructor <;> simp [Matrix.det_fin_two_of]
-- one that is a unit, and so is right; one that divides by zero
example : (z_mat_op noFiles (a ["det", "[[1 2][3 5]]"])).run = ok ("-1\n".toList, .val ()) ∧
    (z_mat_op noFiles (a ["det", "[[2 0][0 1]]"])).run = ub := by decide +kernel
example : (z_mat_op noFiles (a ["[[1 1][1 0]]", "^", "5"])).run = ok ("8 5\n5 3\n".toList, .val ()) ∧
    (z_mat_op noFiles (a ["inv", "[[1 2][3 4]]"])).run = ok ([], .thrown) := by decide +kernel
-- over F2[x]: det [[x]] is x
example : (f2_p_mat_op noFiles (a ["det", "[[2]]"])).run = ok ("0\n".toList, .val ()) ∧
    (f2_p_mat_op noFiles (a ["[[2 1][1 0]]", "^", "3", ")"])).run = ok ("8 5\n5 2\n".toList, .thrown) ∧
    (f2_p_mat_op noFiles (a ["det", "[[2 1][1 0]]"])).run = ok ([], .thrown) ∧
    (f2_p_mat_op noFiles (a ["det", "[[1 2][3 1]]"])).run = ok ("0\n".toList, .val ()) ∧
    (f2_p_mat_op noFiles (a ["det", "[[1 2][2 5]]"])).run = ok ("1\n".toList, .val ()) := by decide +kernel
example : (fp_p_mat_op noFiles (a ["5", "[[1,0 2][3 1]]", "*", "[[1,0][1,4]]"])).run = ok ("123\n44\n".toList, .val ()) ∧
    (fp_p_mat_op noFiles (a ["5", "det", "[[1,0]]"])).run = ok ("0\n".toList, .val ()) ∧
    (fp_p_mat_op noFiles (a ["5", "inv", "[[1 2][3 4]]"])).run = ok ("3 1\n4 2\n".toList, .val ()) := by decide +kernel
example : (f2n_p_mat_op noFiles (a ["7", "[[1:0 2][3 1]]", "*", "[[1:0][1:2]]"])).run = ok ("1:2:3\n2:2\n".toList, .val ()) ∧
    (f2n_p_mat_op noFiles (a ["7", "det", "[[1:2]]"])).run = ok ("0\n".toList, .val ()) := by decide +kernel
example : (fpn_p_mat_op noFiles (a ["3", "1,0,1", "[[1:0 10][20 1]]", "*", "[[1:0][1:2]]"])).run = ok ("1:10:20\n21:2\n".toList, .val ()) ∧
    (fpn_p_mat_op noFiles (a ["3", "1,0,1", "det", "[[1:10]]"])).run = ok ("0\n".toList, .val ()) := by decide +kernel
example : (f2n_pm_mat_op noFiles (a ["7", "1:1:2", "inv", "[[1:0 1][1 1:2]]"])).run = ok ("3:2 1:0\n1:0 1:2\n".toList, .val ()) ∧
    (f2n_pm_vec_op (a ["7", "1:1:2", "[1:0 1:3]", "^", "-1"])).run = ok ("3:3 2:3\n".toList, .val ()) := by decide +kernel
example : (fpn_pm_mat_op noFiles (a ["3", "1,0,1"])).run = ok ([], .exit1) := by decide +kernel

end Examples

end Spffl.Props.Cmd112
