import Verif.Proof.CmdPmGen

/-!
# C106: the commands for residues modulo polynomials over Fp and F2^n
-/

namespace Spffl.Props.Cmd106
open Res Scan Polynomial Spffl.Cmd Lists PText93
open F2P (Canon toPoly hexOf)
open Cmd101 (IsHex)
open CPoly (PRep)
open CM (FpM F2nM)
open LA (C85_fp_min_partial C85_f2n_min_partial)

/-- The representative that is printed and by which residues are ordered: the one whose degree is below that of the modulus. -/
theorem C106_low {K : Type} [Field K] {M : K[X]} (hM : M ≠ 0) (z : AdjoinRoot M) (f : K[X]) :
    (low M z).degree < M.degree ∧ AdjoinRoot.mk M (low M z) = z ∧ (f.degree < M.degree → low M (AdjoinRoot.mk M f) = f) :=
  ⟨low_deg hM, mk_low, low_mk⟩

/-! ### Fp -/

section fp
variable {p : ℕ} [hp : Fact p.Prime] {M : (ZMod p)[X]} {x y : List Char} {d : CMod IntMod} {mm : CPoly IntMod}

/-- A text denotes a residue if it denotes a polynomial in its class. -/
def FpLit (M : (ZMod p)[X]) (cs : List Char) (z : AdjoinRoot M) : Prop := ∃ f, FpDenotes p cs f ∧ AdjoinRoot.mk M f = z

/-- A text that is no residue, other than one without anything but commas. -/
def FpResBad (p : ℕ) (cs : List Char) : Prop := (∀ f, ¬ FpDenotes p cs f) ∧ ∃ c ∈ cs, c ≠ ','

/-- The text of a residue: its coefficients, without separators for p < 10. -/
noncomputable def fpText (z : AdjoinRoot M) : List Char := pmText (if 9 < p then [','] else []) (fun c => showInt c.val) M z

/-- The order of residues. -/
noncomputable def fpResKey (z : AdjoinRoot M) : ℕ := fpKey p (low M z)

theorem fp_sh (h46 : p ≤ 46341) {a : CMod IntMod} {z : AdjoinRoot M} (ha : FpM p M a z) : PText.fpModShow a = ok (fpText z) := by
  obtain ⟨f, t, h1, rfl, rfl, h2, -⟩ := C93_fpmod_round_trip h46 ha
  rw [h2]
  unfold fpText pmText
  rw [low_mk h1]

theorem fp_read (h46 : p ≤ 46341) (hm : PRep (IntMod.Rep p) mm M) (hM : M ≠ 0) {cs : List Char} {z : AdjoinRoot M} (h : FpLit M cs z) :
    ∃ a, PText.fpModFromString mm cs = ok (some a) ∧ FpM p M a z := by
  obtain ⟨f, h1, rfl⟩ := h
  obtain ⟨o, e1, a, rfl, e2⟩ := (C93_fpmod_from_string h46 hm hM cs).1 f h1
  exact ⟨a, e1, e2⟩

theorem fp_refuse (h46 : p ≤ 46341) (hm : PRep (IntMod.Rep p) mm M) (hM : M ≠ 0) {cs : List Char} (h : FpResBad p cs) :
    PText.fpModFromString mm cs = ok none := by
  obtain ⟨h1, c, hc, hcc⟩ := h
  obtain ⟨-, k1, k2, -⟩ := C93_fpmod_from_string h46 hm hM cs
  by_cases hd : ',' ∉ cs ∧ p < 10
  · refine k2 hd.1 hd.2 ?_
    by_contra hn
    push Not at hn
    exact h1 _ (.inl ⟨hd.1, hd.2, List.ne_nil_of_mem hc, fun c h => by simpa using hn c h, rfl⟩)
  · have hc' : ',' ∈ cs ∨ 10 ≤ p := by
      by_contra hn
      push Not at hn
      exact hd ⟨hn.1, hn.2⟩
    refine k1 hc' ?_
    by_contra hn
    push Not at hn
    have : ∀ l : List (List Char), (∀ t ∈ l, ∃ n tail, IntText t n tail ∧ InInt n) → ∃ xs, List.Forall₂ (FpReads p) l xs := by
      intro l
      induction l with
      | nil => exact fun _ => ⟨[], .nil⟩
      | cons t l ih =>
        intro hl
        obtain ⟨n, tail, k1, k2⟩ := hl t (by simp)
        obtain ⟨xs, hxs⟩ := ih fun s hs => hl s (by simp [hs])
        exact ⟨_ :: xs, .cons ⟨n, tail, k1, k2, rfl⟩ hxs⟩
    obtain ⟨xs, hxs⟩ := this _ hn
    exact h1 _ (.inr ⟨hc', xs, fun e => hcc (stretch_nil e c hc), hxs, rfl⟩)

theorem fp_io (h46 : p ≤ 46341) (hm : PRep (IntMod.Rep p) mm M) (hM : M ≠ 0) :
    RIOB (fpPmTool d) mm (FpM p M) (FpLit M) (FpResBad p) fpText where
  read h := fp_read h46 hm hM h
  bad h := fp_refuse h46 hm hM h
  sh _ _ h := fp_sh h46 h

theorem fp_par (h46 : p ≤ 46341) (hx : IsInt x p) (hy : FpDenotes p y M) : ∃ mm, Prints (fpPmArg x y) [] mm ∧ PRep (IntMod.Rep p) mm M := by
  obtain ⟨mm, h1, h2⟩ := (Cmd102.tool h46).read hy
  exact ⟨mm, (intArg_prints hx).then (readArg_prints h1), h2⟩

theorem fp_par_bad (h46 : p ≤ 46341) (hx : IsInt x p) (hy : Cmd102.FpBad p y) : Exits (fpPmArg x y) [] :=
  (intArg_prints hx).then_exits (readArg_exits (Cmd102.read_bad h46 hy))

theorem low_natDegree {K : Type} [Field K] {M : K[X]} (hM : M ≠ 0) (z : AdjoinRoot M) : (low M z).natDegree < max 1 M.natDegree := by
  have h := low_deg (x := z) hM
  by_cases h0 : low M z = 0
  · rw [h0, natDegree_zero]
    omega
  · exact (natDegree_lt_natDegree h0 h).trans_le (le_max_right _ _)

/-- C106: reading and writing residues: a text denotes at most one residue and is read as that; a text that denotes none is refused, unless it has
nothing but commas; what is printed denotes what it was. -/
theorem C106_fp_text (h46 : p ≤ 46341) (hm : PRep (IntMod.Rep p) mm M) (hM : M ≠ 0) :
    (∀ cs (z w : AdjoinRoot M), FpLit M cs z → FpLit M cs w → z = w) ∧
    (∀ cs (z : AdjoinRoot M), FpLit M cs z → ∃ a, PText.fpModFromString mm cs = ok (some a) ∧ PText.fpModShow a = ok (fpText z)) ∧
    (∀ cs, (∀ z : AdjoinRoot M, ¬ FpLit M cs z) → (∃ c ∈ cs, c ≠ ',') → PText.fpModFromString mm cs = ok none) ∧
    ∀ z : AdjoinRoot M, FpLit M (fpText z) z := by
  refine ⟨fun cs z w h h' => ?_, fun cs z h => ?_, fun cs h hc => fp_refuse h46 hm hM ⟨fun f hf => h _ ⟨f, hf, rfl⟩, hc⟩, fun z => ?_⟩
  · obtain ⟨f, h1, rfl⟩ := h
    obtain ⟨g, h2, rfl⟩ := h'
    rw [(Cmd102.C102_text h46).1 cs f g h1 h2]
  · obtain ⟨a, e1, e2⟩ := fp_read h46 hm hM h
    exact ⟨a, e1, fp_sh h46 e2⟩
  · exact ⟨low M z, (fp_text hp.out.pos (by omega) (low M z) (low_natDegree hM z) rfl).2.2, mk_low⟩

/-- C106: a residue written with nothing but commas, or the empty text, is undefined behaviour. -/
theorem C106_violated_fp_commas (h46 : p ≤ 46341) (hx : IsInt x p) (hy : FpDenotes p y M) (hM : M ≠ 0) {cs : List Char} (hc : ∀ c ∈ cs, c = ',')
    (k : ℕ) (r : List (List Char)) : IsUb (fp_pm_ord k [x, y, cs]) ∧ IsUb (fp_pm_min_pol k (x :: y :: cs :: r)) ∧ IsUb (fp_pm_ch_pol k (x :: y :: cs :: r)) := by
  obtain ⟨mm, h1, h2⟩ := (Cmd102.tool h46).read hy
  have h3 := (C93_fpmod_from_string h46 h2 hM cs).2.2.2 hc
  have h4 : IsUb (readArg (PText.fpModFromString mm) cs) := (ub_lift h3).bind
  have h5 : Prints (fpPmArg x y) [] mm := (intArg_prints hx).then (readArg_prints h1)
  refine ⟨(intArg_prints hx).bind_ub ((readArg_prints h1).bind_ub h4.bind), h5.bind_ub ?_, h5.bind_ub ?_⟩
  · rw [List.forM_eq_forM, List.forM_cons]
    exact h4.bind.bind
  · rw [List.forM_eq_forM, List.forM_cons]
    exact h4.bind.bind

/-- C106: modulo zero nothing is computed: reading a residue throws. -/
theorem C106_fp_zero (h46 : p ≤ 46341) (hx : IsInt x p) (hy : FpDenotes p y 0) {cs : List Char} {f : (ZMod p)[X]} (hc : FpDenotes p cs f) (k : ℕ)
    (r : List (List Char)) : ThrowsC (fp_pm_ord k [x, y, cs]) [] ∧ ThrowsC (fp_pm_min_pol k (x :: y :: cs :: r)) [] ∧
      ThrowsC (fp_pm_ch_pol k (x :: y :: cs :: r)) [] := by
  obtain ⟨mm, h1, h2⟩ := (Cmd102.tool h46).read hy
  have h3 : PText.fpModFromString mm cs = .throw := by
    obtain ⟨c0, hc0, hc0'⟩ := h2.c0
    have e : PText.fpModFromString mm cs = (PText.fpFromString p cs >>= PText.modFinish IntMod.cops mm) := by
      unfold PText.fpModFromString
      have : rd mm.coeffs 0 = ok c0 := by unfold rd; rw [hc0]
      rw [this, ok_bind, hc0'.1]
    obtain ⟨r, e1, b, rfl, e2⟩ := denotes_ok hp.out.pos (by omega) hc
    rw [e, e1, ok_bind]
    unfold PText.modFinish
    simp only [pm_zero (IntMod.cops_ref hp.out.two_le h46) e2 h2, throw_bind]
  have h4 : ThrowsC (readArg (PText.fpModFromString mm) cs) [] := (throws_lift h3).bind
  have h5 : Prints (fpPmArg x y) [] mm := (intArg_prints hx).then (readArg_prints h1)
  refine ⟨(intArg_prints hx).then_throws ((readArg_prints h1).then_throws h4.bind), h5.then_throws ?_, h5.then_throws ?_⟩
  · rw [List.forM_eq_forM, List.forM_cons]
    exact h4.bind.bind
  · rw [List.forM_eq_forM, List.forM_cons]
    exact h4.bind.bind

/-! #### Listings and tables -/

section
variable (h46 : p ≤ 46341) (hx : IsInt x p) (hy : FpDenotes p y M)
include h46

theorem fp_lists {r : Res (List (CMod IntMod))} {S : AdjoinRoot M → Prop}
    (h : r.Ok fun r => Listing (FpM p M) (fun a b => CMod.lt IntMod.cops a b = ok true) r S) : Cmd.Lists (FpM p M) fpResKey r S :=
  pm_lists (IntMod.cops_ref hp.out.two_le h46) (by have := FpP.digits (p := p); rwa [ZMod.card] at this) h

include hx hy

/-- C106, fp_pm_list -a: all residues, one per line, in ascending order.  Missing: powers of p beyond an `int`, as in C70. -/
theorem C106_fp_list_all_partial (hM : M ≠ 0) (hmax : M.natDegree ≤ 2147483647)
    (hpow : M.natDegree = 0 ∨ p ^ (2 ^ (Nat.log 2 M.natDegree + 1)) ≤ 2147483647) :
    ∃ w, Ascend (R := AdjoinRoot M) fpResKey fpText (fun _ => True) w ∧ Prints (fp_pm_list d ["-a".toList, x, y]) w () := by
  obtain ⟨mm, h1, h2⟩ := fp_par h46 hx hy
  exact list_prints (fp_io h46 h2 hM) h1 flag_a (fp_lists h46 (C70_fp_all_partial h46 h2 hM hmax hpow))

/-- C106, fp_pm_list -u and -nu. -/
theorem C106_fp_list_units_partial (hpos : 0 < M.natDegree) (hsz : p ^ (2 * M.natDegree) ≤ 2147483647) :
    (∃ w, Ascend (R := AdjoinRoot M) fpResKey fpText IsUnit w ∧ Prints (fp_pm_list d ["-u".toList, x, y]) w ()) ∧
    ∃ w, Ascend (R := AdjoinRoot M) fpResKey fpText (fun z => ¬ IsUnit z) w ∧ Prints (fp_pm_list d ["-nu".toList, x, y]) w () := by
  have hM : M ≠ 0 := by rintro rfl; simp at hpos
  have hmax : (M.natDegree : Int) ≤ INT_MAX := by
    have h2 := hp.out.two_le
    have h3 : M.natDegree ≤ p ^ (2 * M.natDegree) := (Nat.lt_pow_self (by omega)).le.trans (Nat.pow_le_pow_right (by omega) (by omega))
    unfold INT_MAX
    omega
  obtain ⟨mm, h1, h2⟩ := fp_par h46 hx hy
  exact ⟨list_prints (fp_io h46 h2 hM) h1 flag_u (fp_lists h46 (C70_fp_units_partial h46 h2 hpos hmax hsz)),
    list_prints (fp_io h46 h2 hM) h1 flag_nu (fp_lists h46 (C70_fp_non_units_partial h46 h2 hpos hmax hsz))⟩

/-- C106, fp_pm_tbl: the tables of addition, subtraction and multiplication of all residues, and of multiplication and division of the units, with the
residues in ascending order in rows and columns. -/
theorem C106_fp_tbl_partial (hpos : 0 < M.natDegree) (hsz : p ^ (2 * M.natDegree) ≤ 2147483647) :
    (∃ L : List (AdjoinRoot M), Elems fpResKey (fun _ => True) L ∧ Prints (fp_pm_tbl d [x, y, ['+']]) (tblText fpText (· + ·) L) () ∧
      Prints (fp_pm_tbl d [x, y, ['-']]) (tblText fpText (· - ·) L) () ∧ Prints (fp_pm_tbl d [x, y, ['*']]) (tblText fpText (· * ·) L) () ∧
      Prints (fp_pm_tbl d [x, y, ['.']]) (tblText fpText (· * ·) L) ()) ∧
    ∃ L : List (AdjoinRoot M), Elems fpResKey IsUnit L ∧ Prints (fp_pm_tbl d [x, y, ['u', '*']]) (tblText fpText (· * ·) L) () ∧
      Prints (fp_pm_tbl d [x, y, ['u', '.']]) (tblText fpText (· * ·) L) () ∧
      Prints (fp_pm_tbl d [x, y, ['/']]) (tblText fpText (fun a b => a * Ring.inverse b) L) () := by
  have hM : M ≠ 0 := by rintro rfl; simp at hpos
  have h2 := hp.out.two_le
  have h3 : M.natDegree ≤ p ^ (2 * M.natDegree) := (Nat.lt_pow_self (by omega)).le.trans (Nat.pow_le_pow_right (by omega) (by omega))
  have h4 : 2 ^ (Nat.log 2 M.natDegree + 1) ≤ 2 * M.natDegree := by
    rw [pow_succ, mul_comm]
    exact Nat.mul_le_mul_left 2 (Nat.pow_log_le_self 2 (by omega))
  obtain ⟨mm, h5, h6⟩ := fp_par h46 hx hy
  have H : ROps (fpPmTool d) mm (FpM p M) fpResKey fpText := pm_ops (IntMod.cops_ref h2 h46) rfl (fp_io (d := d) h46 h6 hM).sh
    (fp_lists h46 (C70_fp_all_partial h46 h6 hM (by omega) (.inr ((Nat.pow_le_pow_right (by omega) h4).trans hsz))))
    (fp_lists h46 (C70_fp_units_partial h46 h6 hpos (by unfold INT_MAX; omega) hsz))
  have go : ∀ {cs : List Char} {ty : TblType (CMod IntMod)} {t : List Char}, opArg cs = pure ty → Prints (rTable (fpPmTool d) mm ty) t () →
      Prints (fp_pm_tbl d [x, y, cs]) t () := by
    intro cs ty t he ht
    refine h5.then ?_
    rw [he, pure_bind]
    exact ht
  obtain ⟨⟨L, e, k1, k2, k3⟩, L', e', k4, k5⟩ := table_ops H
  exact ⟨⟨L, e, go rfl k1, go rfl k2, go rfl k3, go rfl k3⟩, L', e', go rfl k4, go rfl k4, go rfl k5⟩

omit hx hy in
/-- C106, fp_pm_tbl: there are no tables of logarithms and powers, though the usage lists them; other operations, too: status 1 and nothing printed. -/
theorem C106_fp_tbl_usage (hx : IsInt x p) (hy : FpDenotes p y M) {cs : List Char}
    (h : cs ∉ [['+'], ['-'], ['*'], ['.'], ['u', '*'], ['u', '.'], ['/']]) : Exits (fp_pm_tbl d [x, y, cs]) [] := by
  simp only [List.mem_cons, List.not_mem_nil, or_false, not_or] at h
  obtain ⟨a1, a2, a3, a4, a5, a6, a7⟩ := h
  obtain ⟨mm, h1, -⟩ := fp_par h46 hx hy
  refine h1.then_exits (Exits.bind ?_)
  unfold opArg
  rw [if_neg (show ¬ cs = "+".toList from a1), if_neg (show ¬ cs = "-".toList from a2), if_neg (show ¬ cs = "*".toList from a3),
    if_neg (show ¬ cs = ".".toList from a4), if_neg (show ¬ cs = "u*".toList from a5), if_neg (show ¬ cs = "u.".toList from a6),
    if_neg (show ¬ cs = "/".toList from a7)]
  exact exits_exit1

/-! #### Orders -/

omit hx hy in
theorem fp_ord_run {mm : CPoly IntMod} (h2 : PRep (IntMod.Rep p) mm M) (hM : M ≠ 0) {cs : List Char} {z : AdjoinRoot M} (hc : FpLit M cs z)
    (hx : IsInt x p) (h1 : (fpTool p).read y = ok (some mm)) (k : ℕ) :
    (¬ IsUnit z → fp_pm_ord k [x, y, cs] = outLine ['0']) ∧
    (IsUnit z → ∃ a one, FpM p M a z ∧ FpM p M one 1 ∧ fp_pm_ord k [x, y, cs] = fpOrdLoop a one k 1 a) := by
  have R := IntMod.cops_ref hp.out.two_le h46
  obtain ⟨a, e1, e2⟩ := fp_read h46 h2 hM hc
  obtain ⟨o, e3, e4⟩ := sat_false.1 (CMod.recip_sat R e2)
  have e5 : fp_pm_ord k [x, y, cs] = (match o with
      | none => outLine ['0']
      | some _ => do
        let z ← lift (do CPoly.const IntMod.cops (← IntMod.mk' 0 p))
        let _ ← lift (CMod.mk' IntMod.cops z mm)
        let o ← lift (do CPoly.const IntMod.cops (← IntMod.mk' 1 p))
        let one ← lift (CMod.mk' IntMod.cops o mm)
        fpOrdLoop a one k 1 a) := by
    refine (skip (intArg_prints hx) _).trans ((skip (readArg_prints h1) _).trans ((skip (readArg_prints e1) _).trans ((skip (prints_lift e3) _).trans ?_)))
    cases o <;> rfl
  rw [e5]
  constructor
  · intro hu
    cases o with
    | none => rfl
    | some i =>
      obtain ⟨v, -, hv⟩ := e4
      exact absurd (IsUnit.of_mul_eq_one _ hv) hu
  · intro hu
    cases o with
    | none => exact absurd hu e4
    | some i =>
      obtain ⟨z0, f1, f2⟩ := sat_false.1 (FpP.mk0 (p := p) h46)
      obtain ⟨z1, f3, f4⟩ := sat_false.1 (FpP.mk1 (p := p) h46)
      obtain ⟨c0, g1, g2⟩ := sat_false.1 (CPoly.const_sat R f2)
      obtain ⟨c1, g3, g4⟩ := sat_false.1 (CPoly.const_sat R f4)
      obtain ⟨b0, i1, -⟩ := sat_false.1 (CMod.mk'_sat R g2 h2 hM)
      obtain ⟨b1, i2, i3⟩ := sat_false.1 (CMod.mk'_sat R g4 h2 hM)
      rw [map_one, map_one] at i3
      refine ⟨a, b1, e2, i3, ?_⟩
      have j1 : (do CPoly.const IntMod.cops (← IntMod.mk' 0 p)) = ok c0 := by rw [f1, ok_bind, g1]
      have j2 : (do CPoly.const IntMod.cops (← IntMod.mk' 1 p)) = ok c1 := by rw [f3, ok_bind, g3]
      exact (skip (prints_lift j1) _).trans ((skip (prints_lift i1) _).trans ((skip (prints_lift j2) _).trans (skip (prints_lift i2) _)))

/-- C106, fp_pm_ord: the order of a unit, in as many rounds; 0 for a residue that is no unit. -/
theorem C106_fp_ord {cs : List Char} {z : AdjoinRoot M} (hc : FpLit M cs z) (hM : M ≠ 0) (k : ℕ) :
    (IsUnit z → orderOf z ≤ 2147483647 → orderOf z ≤ k → Prints (fp_pm_ord k [x, y, cs]) (showInt (orderOf z) ++ ['\n']) ()) ∧
    (¬ IsUnit z → Prints (fp_pm_ord k [x, y, cs]) "0\n".toList ()) ∧
    ∀ bad, FpResBad p bad → Exits (fp_pm_ord k [x, y, bad]) [] := by
  obtain ⟨mm, h1, h2⟩ := (Cmd102.tool h46).read hy
  have hrun := fp_ord_run h46 h2 hM hc hx h1 k
  refine ⟨fun hu hmax hk => ?_, fun hu => ?_, fun bad hb => ?_⟩
  · obtain ⟨a, one, ha, h1, e⟩ := hrun.2 hu
    have : Module.Finite (ZMod p) (AdjoinRoot M) := (AdjoinRoot.powerBasis hM).finite
    have : Finite (AdjoinRoot M) := Module.finite_of_finite (ZMod p)
    have hpos : 0 < orderOf z := by
      obtain ⟨u, rfl⟩ := hu
      rw [orderOf_units]
      exact orderOf_pos u
    rw [e]
    exact fpOrd_prints h46 ha h1 hmax (orderOf z - 1) k 1 a (by rw [pow_one]; exact ha) le_rfl (by omega) (by omega)
  · rw [hrun.1 hu]
    exact outLine_prints _
  · exact (intArg_prints hx).then_exits ((readArg_prints h1).then_exits (readArg_exits (fp_refuse h46 h2 hM hb)).bind)

/-- C106, fp_pm_ord: an order that does not fit in an `int` overflows the counter. -/
theorem C106_violated_fp_ord {cs : List Char} {z : AdjoinRoot M} (hc : FpLit M cs z) (hM : M ≠ 0) (hu : IsUnit z) (hmax : 2147483647 < orderOf z)
    {k : ℕ} (hk : 2147483647 ≤ k) : IsUb (fp_pm_ord k [x, y, cs]) := by
  obtain ⟨mm, h1, h2⟩ := (Cmd102.tool h46).read hy
  obtain ⟨a, one, ha, h1, e⟩ := (fp_ord_run h46 h2 hM hc hx h1 k).2 hu
  rw [e]
  exact fpOrd_ub h46 ha h1 hmax 2147483646 k 1 a (by rw [pow_one]; exact ha) le_rfl rfl (by omega)

/-! #### Minimal and characteristic polynomials -/

/-- C106, fp_pm_min_pol and fp_pm_ch_pol: the minimal polynomial and the characteristic polynomial of each residue, in a field.  Missing: moduli that
are reducible (`C106_violated_hang`). -/
theorem C106_fp_pol_partial [Fact (Irreducible M)] (hI : (M.natDegree : Int) < INT_MAX) {k : ℕ} (hk : M.natDegree ≤ k) :
    Each (FpLit M) (FpResBad p) (fun args => args ≠ []) (fun _ => True)
      (fun several z t => t = lab several (fpText z) ": ".toList ++ fpOut (minpoly (ZMod p) z) ++ ['\n'])
      (fun args => fp_pm_min_pol k (x :: y :: args)) ∧
    Each (FpLit M) (FpResBad p) (fun args => args ≠ []) (fun _ => True)
      (fun several z t => t = lab several (fpText z) ": ".toList ++ fpOut (Algebra.lmul (ZMod p) (AdjoinRoot M) z).charpoly ++ ['\n'])
      (fun args => fp_pm_ch_pol k (x :: y :: args)) := by
  have hM : M ≠ 0 := (Fact.out : Irreducible M).ne_zero
  obtain ⟨mm, h1, h2⟩ := fp_par h46 hx hy
  have T := Cmd102.tool (p := p) h46
  constructor
  · refine each (body := pmPol1 PText.fpModFromString PText.fpModShow PText.fpShow (LinAlg.fp_minimal_polynomial k) mm) (fun args hne => ?_)
      (fun several cs z hz _ => ⟨_, rfl, ?_⟩) (fun several cs hb => (readArg_exits (fp_refuse h46 h2 hM hb)).bind)
    · obtain ⟨u, r, rfl⟩ := List.exists_cons_of_ne_nil hne
      exact skip h1 _
    · obtain ⟨a, e1, e2⟩ := fp_read h46 h2 hM hz
      obtain ⟨r, e3, e4⟩ := (C85_fp_min_partial h46 e2 hI hk).1
      exact ((readArg_prints e1).then ((prints_lift e3).then ((rLabel_prints several (fp_sh h46 e2)).bind (putLine_prints (T.sh e4))))).of_eq
        (List.append_assoc _ _ _).symm
  · refine each (body := pmPol1 PText.fpModFromString PText.fpModShow PText.fpShow (LinAlg.fp_characteristic_polynomial k) mm) (fun args hne => ?_)
      (fun several cs z hz _ => ⟨_, rfl, ?_⟩) (fun several cs hb => (readArg_exits (fp_refuse h46 h2 hM hb)).bind)
    · obtain ⟨u, r, rfl⟩ := List.exists_cons_of_ne_nil hne
      exact skip h1 _
    · obtain ⟨a, e1, e2⟩ := fp_read h46 h2 hM hz
      obtain ⟨r, e3, e4⟩ := (C85_fp_min_partial h46 e2 hI hk).2.1
      exact ((readArg_prints e1).then ((prints_lift e3).then ((rLabel_prints several (fp_sh h46 e2)).bind (putLine_prints (T.sh e4))))).of_eq
        (List.append_assoc _ _ _).symm

/-- C106: for a nilpotent residue other than 0 the search for the number of its conjugates does not end: no number of rounds suffices. -/
theorem C106_violated_fp_hang (hM : M ≠ 0) {cs : List Char} {z : AdjoinRoot M} (hc : FpLit M cs z) (hn : IsNilpotent z) (h0 : z ≠ 0) (k : ℕ)
    (r : List (List Char)) : Hangs (fp_pm_min_pol k (x :: y :: cs :: r)).run ∧ Hangs (fp_pm_ch_pol k (x :: y :: cs :: r)).run := by
  have R := IntMod.cops_ref hp.out.two_le h46
  obtain ⟨mm, h1, h2⟩ := fp_par h46 hx hy
  obtain ⟨a, e1, e2⟩ := fp_read h46 h2 hM hc
  obtain ⟨f, hf, -, -⟩ := e2.hr
  obtain ⟨c, hc, hcr⟩ := hf.c0
  have hrd : rd a.residue.coeffs 0 = ok c := by unfold rd; rw [hc]
  obtain ⟨z0, f1, -⟩ := sat_false.1 (FpP.mk0 (p := p) h46)
  obtain ⟨z1, f3, -⟩ := sat_false.1 (FpP.mk1 (p := p) h46)
  obtain ⟨k1, k2⟩ := pol_hangs R e2 (q := p) hp.out.pos (by unfold INT_MAX; omega) (fun i hi => nilpotent_pow hn h0 hp.out.two_le i hi) ⟨0, 1⟩ z0 z1 k
  constructor
  · have e : fp_pm_min_pol k (x :: y :: cs :: r) = _ := skip h1 _
    rw [e, List.forM_eq_forM, List.forM_cons]
    unfold pmPol1
    rw [skip (readArg_prints e1), bind_assoc]
    refine hangs_lift ?_
    unfold LinAlg.fp_minimal_polynomial
    rw [hrd, ok_bind, hcr.1, f1, ok_bind, f3, ok_bind]
    exact k1
  · have e : fp_pm_ch_pol k (x :: y :: cs :: r) = _ := skip h1 _
    rw [e, List.forM_eq_forM, List.forM_cons]
    unfold pmPol1
    rw [skip (readArg_prints e1), bind_assoc]
    refine hangs_lift ?_
    unfold LinAlg.fp_characteristic_polynomial
    rw [hrd, ok_bind, hcr.1, f1, ok_bind, f3, ok_bind]
    exact k2

end

/-! #### Usage -/

/-- C106: other numbers of arguments and other selections: status 1 and nothing printed. -/
theorem C106_fp_usage (x y : List Char) (k : ℕ) (args : List (List Char)) :
    (∀ f, f ≠ "-a".toList ∧ f ≠ "-u".toList ∧ f ≠ "-nu".toList → Exits (fp_pm_list d [f, x, y]) []) ∧
    (args.length ≠ 3 → Exits (fp_pm_list d args) [] ∧ Exits (fp_pm_tbl d args) [] ∧ Exits (fp_pm_ord k args) []) ∧
    (args.length < 3 → Exits (fp_pm_min_pol k args) [] ∧ Exits (fp_pm_ch_pol k args) []) := by
  refine ⟨fun f h => list_flag h, fun h => ?_, fun h => ?_⟩
  · match args with
    | [] | [_] | [_, _] | _ :: _ :: _ :: _ :: _ => exact ⟨exits_exit1, exits_exit1, exits_exit1⟩
    | [_, _, _] => exact absurd rfl h
  · match args with
    | [] | [_] | [_, _] => exact ⟨exits_exit1, exits_exit1⟩
    | _ :: _ :: _ :: _ => simp at h; omega

theorem list_exits {par : List Char → Cmd (CPoly IntMod)} {T : RTool (CPoly IntMod) (CMod IntMod)} {y : List Char} (h : Exits (par y) []) (f : List Char) :
    Exits (rList par T [f, y]) [] := by
  show Exits (listFlag f >>= _) []
  unfold listFlag
  split_ifs
  · exact (prints_pure _).then_exits h.bind
  · exact (prints_pure _).then_exits h.bind
  · exact (prints_pure _).then_exits h.bind
  · exact exits_exit1.bind

/-- C106: a first argument that is no integer, or a modulus that is no polynomial. -/
theorem C106_fp_usage_modulus (h46 : p ≤ 46341) (hxy : NotInt x ∨ IsInt x p ∧ Cmd102.FpBad p y) (z : List Char) (k : ℕ) (r : List (List Char)) :
    Exits (fp_pm_list d [z, x, y]) [] ∧ Exits (fp_pm_tbl d [x, y, z]) [] ∧ Exits (fp_pm_ord k [x, y, z]) [] ∧
    Exits (fp_pm_min_pol k (x :: y :: z :: r)) [] ∧ Exits (fp_pm_ch_pol k (x :: y :: z :: r)) [] := by
  have h : Exits (fpPmArg x y) [] := by
    rcases hxy with h | ⟨h1, h2⟩
    · exact (intArg_exits h).bind
    · exact fp_par_bad h46 h1 h2
  refine ⟨list_exits h z, h.bind, ?_, h.bind, h.bind⟩
  rcases hxy with h | ⟨h1, h2⟩
  · exact (intArg_exits h).bind
  · exact (intArg_prints h1).then_exits (readArg_exits (Cmd102.read_bad h46 h2)).bind

/-- C106: fp_pm_mat_op and fp_pm_vecop have no usage function: with fewer than two arguments, a first argument that is no integer or a modulus that is no
polynomial a null pointer is called. -/
theorem C106_violated_null_usage (h46 : p ≤ 46341) (run : CPoly IntMod → List (List Char) → Cmd Unit) (r : List (List Char)) :
    IsUb (fp_pm_calc run []) ∧ IsUb (fp_pm_calc run [x]) ∧ (NotInt x → IsUb (fp_pm_calc run (x :: y :: r))) ∧
    (IsInt x p → Cmd102.FpBad p y → IsUb (fp_pm_calc run (x :: y :: r))) := by
  have hn : ∀ {α : Type}, IsUb (nullUsage : Cmd α) := rfl
  refine ⟨rfl, rfl, fun h => ?_, fun h1 h2 => ?_⟩
  · exact ((prints_lift (scanD_none h)).bind_ub (f := fun o => match o with | some r => pure r.1 | none => nullUsage) hn).bind
  · have e : Prints (intArgN x) [] p := by
      obtain ⟨hn, tail, ht⟩ := h1
      unfold intArgN
      refine Prints.then (a := some ((p : Int), tail)) (prints_lift ?_) (prints_pure _)
      rw [scanD_text ht, if_pos hn]
    have e' : IsUb (readArgN (fpTool p).read y) := (prints_lift (Cmd102.read_bad h46 h2)).bind_ub hn
    exact e.bind_ub e'.bind

end fp

/-! ### F2^n -/

section f2n
variable {m : (ZMod 2)[X]} [hm : Fact (Irreducible m)] {M : (AdjoinRoot m)[X]} {x y : List Char} {d : CMod F2Mod} {mm : CPoly F2Mod}
  {qs : List (CMod F2Mod × ℕ) → List (CMod F2Mod × ℕ)}

open Cmd103 (F2nText F2nBad f2nOut stretches)

omit hm in
/-- A text denotes a residue if it denotes a polynomial in its class. -/
def NLit (M : (AdjoinRoot m)[X]) (cs : List Char) (z : AdjoinRoot M) : Prop := ∃ f, F2nText m cs f ∧ AdjoinRoot.mk M f = z

omit hm in
/-- A text that is no residue, other than one without anything but colons. -/
def NResBad (m : (ZMod 2)[X]) (cs : List Char) : Prop := F2nBad m cs ∧ ∃ c ∈ cs, c ≠ ':'

/-- The text of a residue: the binary numbers of its coefficients, in hexadecimal. -/
noncomputable def nText (z : AdjoinRoot M) : List Char := pmText [':'] (fun c => hexOf (F2nP.kv m c)) M z

/-- The order of residues. -/
noncomputable def nKey (z : AdjoinRoot M) : ℕ := f2nKey m (low M z)

theorem n_sh {a : CMod F2Mod} {z : AdjoinRoot M} (ha : F2nM m M a z) : PText.f2nModShow a = ok (nText z) := by
  obtain ⟨f, q, t, h1, rfl, h2, rfl, h3, -⟩ := C93_f2nmod_round_trip ha
  rw [h3]
  unfold nText pmText
  rw [low_mk h1]
  congr 2
  refine List.map_congr_left fun i _ => ?_
  show _ = hexOf (F2nP.kv m _)
  rw [← (h2 i).2, F2nP.kv_mk (h2 i).1]

theorem n_read (hmm : PRep (F2Mod.Rep m) mm M) (hM : M ≠ 0) {cs : List Char} {z : AdjoinRoot M} (h : NLit M cs z) :
    ∃ a, PText.f2nModFromString mm cs = ok (some a) ∧ F2nM m M a z := by
  obtain ⟨f, ⟨xs, h1, h2, rfl⟩, rfl⟩ := h
  obtain ⟨o, e1, a, rfl, e2⟩ := (C93_f2nmod_from_string hmm hM rfl).1 xs h1 h2
  exact ⟨a, e1, e2⟩

theorem n_refuse (hmm : PRep (F2Mod.Rep m) mm M) (hM : M ≠ 0) {cs : List Char} (h : NResBad m cs) : PText.f2nModFromString mm cs = ok none := by
  obtain ⟨h1, c, hc, hcc⟩ := h
  refine (C93_f2nmod_from_string hmm hM (rfl : _ = stretches cs)).2.1 ?_
  by_contra hn
  push Not at hn
  have : ∀ l : List (List Char), (∀ t ∈ l, ∃ x, F2Reads m t x) → ∃ xs, List.Forall₂ (F2Reads m) l xs := by
    intro l
    induction l with
    | nil => exact fun _ => ⟨[], .nil⟩
    | cons t l ih =>
      intro hl
      obtain ⟨y, hy⟩ := hl t (by simp)
      obtain ⟨xs, hxs⟩ := ih fun s hs => hl s (by simp [hs])
      exact ⟨y :: xs, .cons hy hxs⟩
  obtain ⟨xs, hxs⟩ := this _ hn
  exact h1 _ ⟨xs, fun e => hcc (stretch_nil e c hc), hxs, rfl⟩

theorem n_io (hmm : PRep (F2Mod.Rep m) mm M) (hM : M ≠ 0) : RIOB (f2nPmTool d qs) mm (F2nM m M) (NLit M) (NResBad m) nText where
  read h := n_read hmm hM h
  bad h := n_refuse hmm hM h
  sh _ _ h := n_sh h

theorem n_par (hx : IsHex x m) (hy : F2nText m y M) : ∃ mm, Prints (f2nPmArg x y) [] mm ∧ PRep (F2Mod.Rep m) mm M := by
  obtain ⟨im, h1, h2, h3⟩ := Cmd103.par hx
  obtain ⟨mm, h4, h5⟩ := (Cmd103.tool h2 h3).read hy
  exact ⟨mm, h1.then (readArg_prints h4), h5⟩

/-- C106: reading and writing residues, as for Fp, with colons for commas. -/
theorem C106_f2n_text (hmm : PRep (F2Mod.Rep m) mm M) (hM : M ≠ 0) :
    (∀ cs (z w : AdjoinRoot M), NLit M cs z → NLit M cs w → z = w) ∧
    (∀ cs (z : AdjoinRoot M), NLit M cs z → ∃ a, PText.f2nModFromString mm cs = ok (some a) ∧ PText.f2nModShow a = ok (nText z)) ∧
    (∀ cs, (∀ z : AdjoinRoot M, ¬ NLit M cs z) → (∃ c ∈ cs, c ≠ ':') → PText.f2nModFromString mm cs = ok none) ∧
    ∀ z : AdjoinRoot M, NLit M (nText z) z := by
  refine ⟨fun cs z w h h' => ?_, fun cs z h => ?_, fun cs h hc => n_refuse hmm hM ⟨fun f hf => h _ ⟨f, hf, rfl⟩, hc⟩, fun z => ?_⟩
  · obtain ⟨c0, -, hc0⟩ := hmm.c0
    obtain ⟨f, h1, rfl⟩ := h
    obtain ⟨g, h2, rfl⟩ := h'
    rw [(Cmd103.C103_text hc0.cm hc0.hm).1 cs f g h1 h2]
  · obtain ⟨a, e1, e2⟩ := n_read hmm hM h
    exact ⟨a, e1, n_sh e2⟩
  · exact ⟨low M z, Cmd103.out_text (low M z) (low_natDegree hM z), mk_low⟩

/-- C106: a residue written with nothing but colons, or the empty text, is undefined behaviour. -/
theorem C106_violated_f2n_colons (hx : IsHex x m) (hy : F2nText m y M) (hM : M ≠ 0) {cs : List Char} (hc : ∀ c ∈ cs, c = ':')
    (k : ℕ) (r : List (List Char)) : IsUb (f2n_pm_ord d qs (x :: y :: cs :: r)) ∧ (∀ a, IsUb (f2n_pm_log qs (x :: y :: cs :: a :: r))) ∧
      IsUb (f2n_pm_min_pol k (x :: y :: cs :: r)) ∧ IsUb (f2n_pm_ch_pol k (x :: y :: cs :: r)) := by
  obtain ⟨mm, h5, h2⟩ := n_par hx hy
  have h3 : PText.f2nModFromString mm cs = .ub := by
    refine (C93_f2nmod_from_string h2 hM (rfl : _ = stretches cs)).2.2 ?_
    unfold stretches
    rw [List.filter_eq_nil_iff]
    intro t ht hne
    have hsub : ∀ (l : List Char), (∀ c ∈ l, c = ':') → ∀ t ∈ l.splitOnP (· == ':'), t = [] := by
      intro l
      induction l with
      | nil => intro _ t ht; simpa using ht
      | cons c l ih =>
        intro hl t ht
        rw [List.splitOnP_cons_eq_if_modifyHead, if_pos (by simp [hl c (by simp)])] at ht
        rcases List.mem_cons.1 ht with h | h
        · exact h
        · exact ih (fun c hc => hl c (by simp [hc])) t h
    simp [hsub cs hc t ht] at hne
  have h4 : IsUb (readArg (PText.f2nModFromString mm) cs) := (ub_lift h3).bind
  refine ⟨h5.bind_ub ?_, fun a => h5.bind_ub h4.bind, h5.bind_ub ?_, h5.bind_ub ?_⟩
  · rw [List.forM_eq_forM, List.forM_cons]
    exact IsUb.bind (h4.bind)
  · rw [List.forM_eq_forM, List.forM_cons]
    exact h4.bind.bind
  · rw [List.forM_eq_forM, List.forM_cons]
    exact h4.bind.bind

/-- C106: modulo zero nothing is computed: reading a residue throws. -/
theorem C106_f2n_zero (hx : IsHex x m) (hy : F2nText m y 0) {cs : List Char} {f : (AdjoinRoot m)[X]} (hc : F2nText m cs f) (k : ℕ)
    (r : List (List Char)) : ThrowsC (f2n_pm_ord d qs (x :: y :: cs :: r)) [] ∧ (∀ a, ThrowsC (f2n_pm_log qs (x :: y :: cs :: a :: r)) []) ∧
      ThrowsC (f2n_pm_min_pol k (x :: y :: cs :: r)) [] ∧ ThrowsC (f2n_pm_ch_pol k (x :: y :: cs :: r)) [] := by
  obtain ⟨mm, h5, h2⟩ := n_par hx hy
  have h3 : PText.f2nModFromString mm cs = .throw := by
    obtain ⟨c0, hc0, hc0'⟩ := h2.c0
    have e : PText.f2nModFromString mm cs = (PText.f2nFromString c0.modulus cs >>= PText.modFinish F2Mod.cops mm) := by
      unfold PText.f2nModFromString
      have : CPoly.get_coeff F2Mod.cops mm 0 = ok c0 := by
        unfold CPoly.get_coeff rd
        simp [hc0]
      rw [this, ok_bind]
    obtain ⟨xs, k1, k2, rfl⟩ := hc
    obtain ⟨r, e1, b, rfl, e2⟩ := (C93_f2n_from_string hc0'.cm hc0'.hm hm.out.ne_zero rfl).1 xs k1 k2
    rw [e, e1, ok_bind]
    unfold PText.modFinish
    simp only [pm_zero (F2Mod.cops_ref hm.out.ne_zero) e2 h2, throw_bind]
  have h4 : ThrowsC (readArg (PText.f2nModFromString mm) cs) [] := (throws_lift h3).bind
  refine ⟨h5.then_throws ?_, fun a => h5.then_throws h4.bind, h5.then_throws ?_, h5.then_throws ?_⟩
  · rw [List.forM_eq_forM, List.forM_cons]
    exact ThrowsC.bind h4.bind
  · rw [List.forM_eq_forM, List.forM_cons]
    exact h4.bind.bind
  · rw [List.forM_eq_forM, List.forM_cons]
    exact h4.bind.bind

/-! #### Listings and tables -/

theorem n_lists {r : Res (List (CMod F2Mod))} {S : AdjoinRoot M → Prop}
    (h : r.Ok fun r => Listing (CMod.Rep (F2Mod.Rep m) M) (fun a b => CMod.lt F2Mod.cops a b = ok true) r S) : Cmd.Lists (F2nM m M) nKey r S := by
  have := finite_adjoin m
  let _ := Fintype.ofFinite (AdjoinRoot m)
  refine pm_lists (kv := F2nP.kv m) (q := 2 ^ m.natDegree) ?_ ?_ h
  · have := F2Mod.cops_ref (m := m) hm.out.ne_zero
    rwa [F2nP.ordQ_kv hm.out.ne_zero] at this
  · have := F2nP.digits (m := m)
    rwa [F2nP.card_eq] at this

variable (h30 : m.natDegree ≤ 30) (hx : IsHex x m) (hy : F2nText m y M)
include h30 hx hy

/-- C106, f2n_pm_list -a: all residues, one per line, in ascending order.  Missing: more than 2^30 residues, as in C70. -/
theorem C106_f2n_list_all_partial (hM : M ≠ 0) (hsz : M.natDegree * m.natDegree ≤ 30) :
    ∃ w, Ascend (R := AdjoinRoot M) nKey nText (fun _ => True) w ∧ Prints (f2n_pm_list d qs ["-a".toList, x, y]) w () := by
  obtain ⟨mm, h1, h2⟩ := n_par hx hy
  exact list_prints (n_io h2 hM) h1 flag_a (n_lists (C70_f2n_all_partial h30 h2 hM hsz))

omit h30 hx hy in
theorem n_size (hpos : 0 < M.natDegree) (hsz : 2 ^ (2 * m.natDegree * M.natDegree) ≤ 2147483647) :
    M ≠ 0 ∧ (M.natDegree : Int) ≤ INT_MAX ∧ M.natDegree * m.natDegree ≤ 30 ∧ M.natDegree ≤ 30 := by
  have h1 : 1 ≤ m.natDegree := hm.out.natDegree_pos
  have h2 : M.natDegree ≤ M.natDegree * m.natDegree := Nat.le_mul_of_pos_right _ (by omega)
  have h3 : 2 * m.natDegree * M.natDegree < 31 := by
    by_contra hcon
    have := Nat.pow_le_pow_right (n := 2) (by norm_num) (show 31 ≤ 2 * m.natDegree * M.natDegree by omega)
    omega
  have h4 : M.natDegree * m.natDegree ≤ 30 := by
    have : 2 * m.natDegree * M.natDegree = 2 * (M.natDegree * m.natDegree) := by ring
    omega
  refine ⟨ne_zero_of_natDegree_gt hpos, ?_, h4, by omega⟩
  unfold INT_MAX
  omega

/-- C106, f2n_pm_list -u and -nu. -/
theorem C106_f2n_list_units_partial (hpos : 0 < M.natDegree) (hsz : 2 ^ (2 * m.natDegree * M.natDegree) ≤ 2147483647) :
    (∃ w, Ascend (R := AdjoinRoot M) nKey nText IsUnit w ∧ Prints (f2n_pm_list d qs ["-u".toList, x, y]) w ()) ∧
    ∃ w, Ascend (R := AdjoinRoot M) nKey nText (fun z => ¬ IsUnit z) w ∧ Prints (f2n_pm_list d qs ["-nu".toList, x, y]) w () := by
  obtain ⟨hM, hmax, -, -⟩ := n_size hpos hsz
  obtain ⟨mm, h1, h2⟩ := n_par hx hy
  exact ⟨list_prints (n_io h2 hM) h1 flag_u (n_lists (C70_f2n_units_partial h30 h2 hpos hmax hsz)),
    list_prints (n_io h2 hM) h1 flag_nu (n_lists (C70_f2n_non_units_partial h30 h2 hpos hmax hsz))⟩

omit hx hy in
theorem n_ops (h2 : PRep (F2Mod.Rep m) mm M) (hpos : 0 < M.natDegree) (hsz : 2 ^ (2 * m.natDegree * M.natDegree) ≤ 2147483647) :
    ROps (f2nPmTool d qs) mm (F2nM m M) nKey nText := by
  obtain ⟨hM, hmax, h4, -⟩ := n_size hpos hsz
  exact pm_ops (F2Mod.cops_ref hm.out.ne_zero) rfl (n_io (d := d) (qs := qs) h2 hM).sh (n_lists (C70_f2n_all_partial h30 h2 hM h4))
    (n_lists (C70_f2n_units_partial h30 h2 hpos hmax hsz))

omit hm h30 hx hy in
theorem n_tbl {mm : CPoly F2Mod} (h1 : Prints (f2nPmArg x y) [] mm) {cs : List Char} {ty : TblType (CMod F2Mod)} (h : tblArg (f2nPmTool d qs) mm cs = pure ty) :
    f2n_pm_tbl d qs [x, y, cs] = f2nTable d qs mm ty := by
  refine (skip h1 _).trans ?_
  rw [h, pure_bind]

/-- C106, f2n_pm_tbl: the tables of addition, subtraction and multiplication of all residues, and of multiplication and division of the units, with the
residues in ascending order in rows and columns. -/
theorem C106_f2n_tbl_partial (hpos : 0 < M.natDegree) (hsz : 2 ^ (2 * m.natDegree * M.natDegree) ≤ 2147483647) :
    (∃ L : List (AdjoinRoot M), Elems nKey (fun _ => True) L ∧ Prints (f2n_pm_tbl d qs [x, y, ['+']]) (tblText nText (· + ·) L) () ∧
      Prints (f2n_pm_tbl d qs [x, y, ['-']]) (tblText nText (· - ·) L) () ∧ Prints (f2n_pm_tbl d qs [x, y, ['*']]) (tblText nText (· * ·) L) () ∧
      Prints (f2n_pm_tbl d qs [x, y, ['.']]) (tblText nText (· * ·) L) ()) ∧
    ∃ L : List (AdjoinRoot M), Elems nKey IsUnit L ∧ Prints (f2n_pm_tbl d qs [x, y, ['u', '*']]) (tblText nText (· * ·) L) () ∧
      Prints (f2n_pm_tbl d qs [x, y, ['u', '.']]) (tblText nText (· * ·) L) () ∧
      Prints (f2n_pm_tbl d qs [x, y, ['/']]) (tblText nText (fun a b => a * Ring.inverse b) L) () := by
  obtain ⟨mm, h1, h2⟩ := n_par hx hy
  obtain ⟨⟨L, e, k1, k2, k3⟩, L', e', k4, k5⟩ := table_ops (n_ops (d := d) (qs := qs) h30 h2 hpos hsz)
  refine ⟨⟨L, e, ?_, ?_, ?_, ?_⟩, L', e', ?_, ?_, ?_⟩
  · rw [n_tbl h1 (ty := .plus) rfl]; exact k1
  · rw [n_tbl h1 (ty := .minus) rfl]; exact k2
  · rw [n_tbl h1 (ty := .mul) rfl]; exact k3
  · rw [n_tbl h1 (ty := .mul) rfl]; exact k3
  · rw [n_tbl h1 (ty := .unit_mul) rfl]; exact k4
  · rw [n_tbl h1 (ty := .unit_mul) rfl]; exact k4
  · rw [n_tbl h1 (ty := .unit_div) rfl]; exact k5

/-- C106, f2n_pm_tbl alog:w and alog: the powers of w, or of the generator found, as many as there are units; an exception after the heading if w is no
unit, and before it if the search for a generator meets a residue that is no unit. -/
theorem C106_f2n_alog_partial (hpos : 0 < M.natDegree) (hsz : 2 ^ (2 * m.natDegree * M.natDegree) ≤ 2147483647) :
    (∀ cs (w : AdjoinRoot M), NLit M cs w →
      (IsUnit w → Prints (f2n_pm_tbl d qs [x, y, "alog:".toList ++ cs]) (alogHead ++ alogText nText w (Nat.card (AdjoinRoot M)ˣ)) ()) ∧
      (¬ IsUnit w → ThrowsC (f2n_pm_tbl d qs [x, y, "alog:".toList ++ cs]) alogHead)) ∧
    ((∃ w : AdjoinRoot M, FoundGenN w ∧ Prints (f2n_pm_tbl d qs [x, y, "alog".toList]) (alogHead ++ alogText nText w (Nat.card (AdjoinRoot M)ˣ)) ()) ∨
      (BlockedN M ∧ ThrowsC (f2n_pm_tbl d qs [x, y, "alog".toList]) [])) := by
  obtain ⟨hM, -, -, -⟩ := n_size hpos hsz
  obtain ⟨mm, h1, h2⟩ := n_par hx hy
  have H := n_ops (d := d) (qs := qs) h30 h2 hpos hsz
  constructor
  · intro cs w hw
    obtain ⟨a, e1, e2⟩ := n_read h2 hM hw
    have e : f2n_pm_tbl d qs [x, y, "alog:".toList ++ cs] = f2nTable d qs mm (.alog a) := n_tbl h1 (tblArg_alog e1)
    obtain ⟨L, k1, k2, k3⟩ := table_alog H e2
    rw [e, ← k1.units_length]
    exact ⟨k2, k3⟩
  · rcases f2n_gen_any h30 h2 hpos hsz with ⟨g, w, k1, k2, k3⟩ | ⟨k1, k2⟩
    · have e : f2n_pm_tbl d qs [x, y, "alog".toList] = f2nTable d qs mm (.alog g) := n_tbl h1 (tblArg_gen (T := f2nPmTool d qs) k1).2
      obtain ⟨L, k4, k5, -⟩ := table_alog H k2
      refine .inl ⟨w, k3, ?_⟩
      rw [e, ← k4.units_length]
      exact k5 k3.1.1
    · refine .inr ⟨k2, h1.then_throws (ThrowsC.bind ?_)⟩
      have e2 : tblArg (f2nPmTool d qs) mm "alog".toList = (genArg (f2nPmTool d qs) mm >>= fun g => pure (.alog g)) := rfl
      rw [e2]
      exact ThrowsC.bind (throws_lift (show (f2nPmTool d qs).gen mm = .throw from k1)).bind

/-! #### Orders and generators -/

/-- C106, f2n_pm_ord: the order of each unit; at a residue that is no unit an uncaught exception, after its label. -/
theorem C106_f2n_ord_partial (hpos : 0 < M.natDegree) (hsz : 2 ^ (2 * m.natDegree * M.natDegree) ≤ 2147483647) :
    EachTB (NLit M) (NResBad m) (fun args => args ≠ []) IsUnit
      (fun several z t => t = lab several (nText z) ": ".toList ++ showInt (orderOf z) ++ ['\n'])
      (fun several z => lab several (nText z) ": ".toList) (fun args => f2n_pm_ord d qs (x :: y :: args)) := by
  obtain ⟨hM, -, -, -⟩ := n_size hpos hsz
  obtain ⟨mm, h1, h2⟩ := n_par hx hy
  exact ord_each (par := f2nPmArg x) (n_io (d := d) (qs := qs) h2 hM) h1 (fun h hu => C59_f2n_order_partial h30 h hu hpos hsz) (fun h hu => C59_f2n_nonunit h hu)

omit hy in
/-- C106, f2n_pm_find_gen: for each modulus the least generator, if all residues before it but 0 are units; otherwise an uncaught exception, after the
label.  For irreducible moduli there is always a generator. -/
theorem C106_f2n_find_gen_partial :
    (∀ args (Ms : List (AdjoinRoot m)[X]), args ≠ [] →
      List.Forall₂ (fun cs M => F2nText m cs M ∧ 0 < M.natDegree ∧ 2 ^ (2 * m.natDegree * M.natDegree) ≤ 2147483647 ∧ ¬ BlockedN M) args Ms →
      ∃ ts, List.Forall₂ (fun M t => ∃ w : AdjoinRoot M, FoundGenN w ∧ t = lab (1 < args.length) (f2nOut M) ": ".toList ++ nText w ++ ['\n']) Ms ts ∧
        Prints (f2n_pm_find_gen d qs (x :: args)) ts.flatten 0) ∧
    (∀ pre bad post (Ms : List (AdjoinRoot m)[X]),
      List.Forall₂ (fun cs M => F2nText m cs M ∧ 0 < M.natDegree ∧ 2 ^ (2 * m.natDegree * M.natDegree) ≤ 2147483647 ∧ ¬ BlockedN M) pre Ms → F2nBad m bad →
      ∃ ts, List.Forall₂ (fun M t => ∃ w : AdjoinRoot M, FoundGenN w ∧
          t = lab (1 < (pre ++ bad :: post).length) (f2nOut M) ": ".toList ++ nText w ++ ['\n']) Ms ts ∧
        Exits (f2n_pm_find_gen d qs (x :: (pre ++ bad :: post))) ts.flatten) ∧
    (∀ pre bad post (Ms : List (AdjoinRoot m)[X]) (N : (AdjoinRoot m)[X]),
      List.Forall₂ (fun cs M => F2nText m cs M ∧ 0 < M.natDegree ∧ 2 ^ (2 * m.natDegree * M.natDegree) ≤ 2147483647 ∧ ¬ BlockedN M) pre Ms →
      F2nText m bad N → (N.natDegree = 0 ∨ 2 ^ (2 * m.natDegree * N.natDegree) ≤ 2147483647 ∧ BlockedN N) →
      ∃ ts, List.Forall₂ (fun M t => ∃ w : AdjoinRoot M, FoundGenN w ∧
          t = lab (1 < (pre ++ bad :: post).length) (f2nOut M) ": ".toList ++ nText w ++ ['\n']) Ms ts ∧
        ThrowsC (f2n_pm_find_gen d qs (x :: (pre ++ bad :: post))) (ts.flatten ++ lab (1 < (pre ++ bad :: post).length) (f2nOut N) ": ".toList)) ∧
    ∀ N : (AdjoinRoot m)[X], Irreducible N → ¬ BlockedN N := by
  obtain ⟨im, hp, hc, ht⟩ := Cmd103.par hx
  have e : ∀ {args : List (List Char)}, args ≠ [] → f2n_pm_find_gen d qs (x :: args) = rFindGen (readArg (f2nTool im).read) (f2nPmTool d qs) args := by
    intro args hne
    obtain ⟨z, r, rfl⟩ := List.exists_cons_of_ne_nil hne
    exact skip hp _
  have hyp : ∀ cs (M : (AdjoinRoot m)[X]), (F2nText m cs M ∧ 0 < M.natDegree ∧ 2 ^ (2 * m.natDegree * M.natDegree) ≤ 2147483647 ∧ ¬ BlockedN M) →
      ∃ mm, Prints (readArg (f2nTool im).read cs) [] mm ∧ (f2nPmTool d qs).shM mm = ok (f2nOut M) ∧
        ((∃ g t, (f2nPmTool d qs).gen mm = ok (some g) ∧ (f2nPmTool d qs).sh g = ok t ∧ ∃ w : AdjoinRoot M, FoundGenN w ∧ t = nText w) ∨
          ((f2nPmTool d qs).gen mm = ok none ∧ False)) := by
    rintro cs M ⟨h1, h2, h3, h4⟩
    obtain ⟨mm, e1, e2⟩ := (Cmd103.tool hc ht).read h1
    refine ⟨mm, readArg_prints e1, (Cmd103.tool hc ht).sh e2, .inl ?_⟩
    rcases f2n_gen_any h30 e2 h2 h3 with ⟨g, w, k1, k2, k3⟩ | ⟨-, k2⟩
    · exact ⟨g, _, k1, n_sh k2, w, k3, rfl⟩
    · exact absurd k2 h4
  have hdis : ∀ (M : (AdjoinRoot m)[X]) (t : List Char), (∃ w : AdjoinRoot M, FoundGenN w ∧ t = nText w) → ¬ False := fun _ _ _ h => h
  have lines : ∀ {b : Bool} {Ms : List (AdjoinRoot m)[X]} {ts : List (List Char)},
      List.Forall₂ (GenLine f2nOut (fun (M : (AdjoinRoot m)[X]) t => ∃ w : AdjoinRoot M, FoundGenN w ∧ t = nText w) (fun _ => False) b) Ms ts →
      List.Forall₂ (fun M t => ∃ w : AdjoinRoot M, FoundGenN w ∧ t = lab b (f2nOut M) ": ".toList ++ nText w ++ ['\n']) Ms ts := by
    intro b Ms ts h
    refine h.imp ?_
    rintro M t (⟨g, ⟨w, h1, rfl⟩, rfl⟩ | ⟨h, -⟩)
    · exact ⟨w, h1, rfl⟩
    · exact h.elim
  refine ⟨fun args Ms hne h => ?_, fun pre bad post Ms h hbad => ?_, fun pre bad post Ms N h hN hbl => ?_, fun N hN ⟨y, h1, h2, _⟩ => ?_⟩
  · obtain ⟨ts, v, k1, k2, k3 | k3⟩ := find_gen_prints hyp hdis hne h
    · rw [e hne]
      exact ⟨ts, lines k1, k3.1 ▸ k2⟩
    · obtain ⟨-, M, -, hf⟩ := k3
      exact hf.elim
  · rw [e (by simp)]
    obtain ⟨ts, k1, k2⟩ := find_gen_exits hyp hdis (post := post) h (Cmd103.readArg_bad hc ht hbad)
    exact ⟨ts, lines k1, k2⟩
  · rw [e (by simp)]
    obtain ⟨nn, e1, e2⟩ := (Cmd103.tool hc ht).read hN
    have hgen : F2nU.find_generator nn = .throw := by
      rcases Nat.eq_zero_or_pos N.natDegree with h0 | h0
      · unfold F2nU.find_generator
        obtain ⟨p1, h4, -⟩ := sat_false.mp (CPoly.psub_sat (F2Mod.cops_ref hm.out.ne_zero) e2 (v := 1) (by decide))
        rw [h4, ok_bind, if_pos (by rw [← e2.deg]; omega)]
      · have hbl' := hbl.resolve_left (by omega)
        rcases f2n_gen_any h30 e2 h0 hbl'.1 with ⟨g, w, -, -, k3⟩ | ⟨k1, -⟩
        · exact absurd hbl'.2 (foundN_not_blocked k3)
        · exact k1
    obtain ⟨ts, k1, k2⟩ := find_gen_throws hyp hdis (post := post) h (readArg_prints e1) ((Cmd103.tool hc ht).sh e2) hgen
    exact ⟨ts, lines k1, k2⟩
  · have := Fact.mk hN
    exact h2 (isUnit_iff_ne_zero.2 h1)

omit h30 hx hy in
/-- C106: if x divides the modulus and there are more units than constants other than 0, then x comes before all generators, and the search throws. -/
theorem C106_violated_f2n_find_gen (hdvd : X ∣ M) (hd : 2 ≤ M.natDegree) (hu : 2 ^ m.natDegree ≤ Nat.card (AdjoinRoot M)ˣ) : BlockedN M := by
  have hM : M ≠ 0 := ne_zero_of_natDegree_gt (show 0 < M.natDegree by omega)
  have hfm := finite_adjoin m
  let _ := Fintype.ofFinite (AdjoinRoot m)
  have hfM := F2nU.finite_adjoin hM
  have D := F2nP.digits (m := m)
  rw [F2nP.card_eq] at D
  have hlt : (X : (AdjoinRoot m)[X]).degree < M.degree := by rw [degree_X, degree_eq_natDegree hM]; exact_mod_cast hd
  have hnt := AdjoinRoot.nontrivial M (by rw [degree_eq_natDegree hM]; exact_mod_cast (show M.natDegree ≠ 0 by omega))
  have hX : ¬ IsUnit (AdjoinRoot.mk M X) := fun hun => by
    rw [CMod.isUnit_mk] at hun
    exact not_isUnit_X (hun.isUnit_of_dvd' dvd_rfl hdvd)
  refine ⟨AdjoinRoot.mk M X, fun h0 => ?_, hX, fun z hz => ?_⟩
  · rw [AdjoinRoot.mk_eq_zero] at h0
    exact X_ne_zero (eq_zero_of_dvd_of_degree_lt h0 hlt)
  · rw [low_mk hlt]
    have kX : f2nKey m X = 2 ^ m.natDegree := by simpa using D.key_X_pow F2nP.kv_one 1
    rw [kX]
    by_contra hcon
    have hz0 : low M z ≠ 0 := fun h => by
      have : z = 0 := by rw [← mk_low (x := z), h, map_zero]
      rw [this] at hz
      exact not_isUnit_zero hz.1
    have hne : f2nKey m (low M z) ≠ 2 ^ m.natDegree := fun h => by
      have : low M z = X := D.key_inj (h.trans kX.symm)
      rw [← this, mk_low] at hX
      exact hX hz.1
    have hdeg : (low M z).natDegree = 0 := by
      by_contra h1
      have h2 := D.le_key hz0
      have h3 := Nat.le_self_pow h1 (2 ^ m.natDegree)
      have h4 : f2nKey m (low M z) = polyKey (2 ^ m.natDegree) (F2nP.kv m) (low M z) := rfl
      omega
    obtain ⟨c, hc⟩ := natDegree_eq_zero.1 hdeg
    have hc0 : c ≠ 0 := by
      rintro rfl
      rw [C_0] at hc
      exact hz0 hc.symm
    have hord := (genUnits_iff.1 hz).2
    have hpow : z ^ (Fintype.card (AdjoinRoot m) - 1) = 1 := by
      rw [← mk_low (x := z), ← hc, ← map_pow, ← C_pow, FiniteField.pow_card_sub_one_eq_one c hc0, C_1, map_one]
    have h2 : 2 ≤ Fintype.card (AdjoinRoot m) := Fintype.one_lt_card
    have := Nat.le_of_dvd (by omega) (orderOf_dvd_of_pow_eq_one hpow)
    rw [F2nP.card_eq] at this
    omega

/-! #### Logarithms -/

section
variable (hqs : IsQsort (CMod.lt F2Mod.cops) qs)
include hqs

omit h30 hx hy in
theorem n_log (h2 : PRep (F2Mod.Rep m) mm M) (hd : M.natDegree ≤ 30) {g a : CMod F2Mod} {w z : AdjoinRoot M} (hg : F2nM m M g w) (ha : F2nM m M a z) :
    (∀ v, F2nU.log qs g a = ok v → ∃ t, Prints (f2nLog qs g a) (logDbg nText (f2nOut M) w z ++ t) v) ∧
    (F2nU.log qs g a = .throw → ∃ t, ThrowsC (f2nLog qs g a) (logDbg nText (f2nOut M) w z ++ t)) := by
  obtain ⟨c0, hc0, hc0'⟩ := h2.c0
  exact f2nLog_prints (fun a z h => n_sh h) hqs.perm hg ha ((Cmd103.tool hc0'.cm hc0'.hm).sh hg.hm) hd

omit h30 in
/-- C106, f2n_pm_log: for each power of the base with an exponent below 2^deg the line ends with an exponent, and before it the lines with which
f2n_polymod_log reports on its work are printed.  Missing: exponents from 2^deg on (`C106_violated_log`). -/
theorem C106_f2n_log_partial (hM : M ≠ 0) (hd : M.natDegree ≤ 30) {g : List Char} {w : AdjoinRoot M} (hg : NLit M g w) :
    Each (NLit M) (NResBad m) (fun args => args ≠ []) (fun z => IsUnit w ∧ ∃ r < 2 ^ M.natDegree, w ^ r = z)
      (fun several z t => ∃ (e : ℕ) (dbg : List Char), w ^ e = z ∧
        t = lab several (nText z) ": ".toList ++ logDbg nText (f2nOut M) w z ++ dbg ++ showInt e ++ ['\n'])
      (fun args => f2n_pm_log qs (x :: y :: g :: args)) := by
  obtain ⟨mm, h1, h2⟩ := n_par hx hy
  obtain ⟨b, g1, g2⟩ := n_read h2 hM hg
  refine each (body := f2nLog1 qs mm b) (fun args hne => ?_) (fun several cs z hz hu => ?_)
    (fun several cs hb => (readArg_exits (n_refuse h2 hM hb)).bind)
  · obtain ⟨u, r, rfl⟩ := List.exists_cons_of_ne_nil hne
    exact (skip h1 _).trans (skip (readArg_prints g1) _)
  · obtain ⟨a, e1, e2⟩ := n_read h2 hM hz
    rcases (C61_f2n_log_partial hqs g2 e2 hd).1 hu.1 with h | ⟨r, h3, h4⟩
    · exact absurd hu.2 h.2
    · obtain ⟨t, ht⟩ := (n_log hqs h2 hd g2 e2).1 _ h3
      refine ⟨_, ⟨r, t, h4, rfl⟩, ((readArg_prints e1).then ((rLabel_prints several (n_sh e2)).bind (ht.bind (outLine_prints _)))).of_eq ?_⟩
      simp only [List.append_assoc]

omit h30 in
/-- C106, f2n_pm_log: if the order of the base is at least 4·2^deg, then some power of the base has no logarithm for the program: it stops with an
uncaught exception, after lines about its work. -/
theorem C106_violated_f2n_log (hM : M ≠ 0) (hd : M.natDegree ≤ 30) {g : List Char} {w : AdjoinRoot M} (hg : NLit M g w) (hw : IsUnit w)
    (ho : 4 * 2 ^ M.natDegree ≤ orderOf w) : ∃ r : ℕ, ∀ cs, NLit M cs (w ^ r) →
      ∃ dbg, ThrowsC (f2n_pm_log qs [x, y, g, cs]) (logDbg nText (f2nOut M) w (w ^ r) ++ dbg) := by
  obtain ⟨mm, h1, h2⟩ := n_par hx hy
  obtain ⟨b, g1, g2⟩ := n_read h2 hM hg
  obtain ⟨r, hr⟩ := C61_violated_f2n g2 hw hd ho
  refine ⟨r, fun cs hcs => ?_⟩
  obtain ⟨a, e1, e2⟩ := n_read h2 hM hcs
  obtain ⟨t, ht⟩ := (n_log hqs h2 hd g2 e2).2 (hr a qs e2 hqs)
  refine ⟨t, ?_⟩
  have e : f2n_pm_log qs [x, y, g, cs] = _ := (skip h1 _).trans (skip (readArg_prints g1) _)
  rw [e, List.forM_eq_forM, List.forM_cons]
  exact ThrowsC.bind ((readArg_prints e1).then_throws ((rLabel_prints false (n_sh e2)).then_throws ht.bind))

omit h30 in
/-- C106, f2n_pm_log: a base that is no unit: an exception. -/
theorem C106_f2n_log_nonunit (hM : M ≠ 0) (hd : M.natDegree ≤ 30) {g : List Char} {w : AdjoinRoot M} (hg : NLit M g w) (hw : ¬ IsUnit w) {cs : List Char}
    {z : AdjoinRoot M} (hcs : NLit M cs z) : ∃ dbg, ThrowsC (f2n_pm_log qs [x, y, g, cs]) (logDbg nText (f2nOut M) w z ++ dbg) := by
  obtain ⟨mm, h1, h2⟩ := n_par hx hy
  obtain ⟨b, g1, g2⟩ := n_read h2 hM hg
  obtain ⟨a, e1, e2⟩ := n_read h2 hM hcs
  obtain ⟨t, ht⟩ := (n_log hqs h2 hd g2 e2).2 ((C61_f2n_log_partial hqs g2 e2 hd).2 hw)
  refine ⟨t, ?_⟩
  have e : f2n_pm_log qs [x, y, g, cs] = _ := (skip h1 _).trans (skip (readArg_prints g1) _)
  rw [e, List.forM_eq_forM, List.forM_cons]
  exact ThrowsC.bind ((readArg_prints e1).then_throws ((rLabel_prints false (n_sh e2)).then_throws ht.bind))

omit h30 hx hy in
/-- A row of the table of logarithms. -/
def NLogLine (M : (AdjoinRoot m)[X]) (w z : AdjoinRoot M) (t : List Char) : Prop :=
  ∃ (e : ℕ) (dbg : List Char), w ^ e = z ∧ t = logDbg nText (f2nOut M) w z ++ dbg ++ nText z ++ ' ' :: showInt e ++ ['\n']

/-- C106, f2n_pm_tbl log:w: for each unit the lines with which f2n_polymod_log reports on its work and the unit with an exponent, if all units are
powers of w with exponents below 2^deg; an exception after some of it if w is no unit or its order is at least 4·2^deg. -/
theorem C106_f2n_tbl_log_partial (hpos : 0 < M.natDegree) (hsz : 2 ^ (2 * m.natDegree * M.natDegree) ≤ 2147483647) {cs : List Char} {w : AdjoinRoot M}
    (hw : NLit M cs w) :
    (IsUnit w → (∀ z : AdjoinRoot M, IsUnit z → ∃ r < 2 ^ M.natDegree, w ^ r = z) → ∃ (L : List (AdjoinRoot M)) (ts : List (List Char)), Elems nKey IsUnit L ∧
      List.Forall₂ (NLogLine M w) L ts ∧ Prints (f2n_pm_tbl d qs [x, y, "log:".toList ++ cs]) (logHead ++ ts.flatten) ()) ∧
    (¬ IsUnit w ∨ 4 * 2 ^ M.natDegree ≤ orderOf w → ∃ t, ThrowsC (f2n_pm_tbl d qs [x, y, "log:".toList ++ cs]) (logHead ++ t)) := by
  obtain ⟨hM, -, -, hd⟩ := n_size hpos hsz
  obtain ⟨mm, h1, h2⟩ := n_par hx hy
  obtain ⟨g, e1, e2⟩ := n_read h2 hM hw
  have H := n_ops (d := d) (qs := qs) h30 h2 hpos hsz
  obtain ⟨l, L, k1, k2, k3⟩ := H.units
  have e : f2n_pm_tbl d qs [x, y, "log:".toList ++ cs] = f2nTable d qs mm (.log g) := n_tbl h1 (tblArg_log e1)
  rw [e]
  constructor
  · intro hu hall
    have rows : ∀ {l : List (CMod F2Mod)} {L : List (AdjoinRoot M)}, List.Forall₂ (F2nM m M) l L → (∀ z ∈ L, IsUnit z) →
        ∃ ts, List.Forall₂ (NLogLine M w) L ts ∧ Prints (f2nLogRows qs g l) ts.flatten () := by
      intro l L h
      induction h with
      | nil => exact fun _ => ⟨[], .nil, prints_pure ()⟩
      | @cons a z l L ha hl ih =>
        intro hz
        obtain ⟨ts, i1, i2⟩ := ih fun u hu => hz u (by simp [hu])
        rcases (C61_f2n_log_partial hqs e2 ha hd).1 hu with h | ⟨r, h3, h4⟩
        · exact absurd (hall z (hz z (by simp))) h.2
        · obtain ⟨t, ht⟩ := (n_log hqs h2 hd e2 ha).1 _ h3
          refine ⟨_ :: ts, .cons ⟨r, t, h4, rfl⟩ i1, (ht.bind ((put_prints (n_sh ha)).bind ((outLine_prints _).bind i2))).of_eq ?_⟩
          simp only [List.append_assoc, List.cons_append, List.flatten_cons]
    obtain ⟨ts, i1, i2⟩ := rows k2 fun z hz => (k3.2 z).1 hz
    exact ⟨L, ts, k3, i1, (prints_lift (show f2n_polymod_list d mm .units = ok l from k1)).then ((prints_out logHead).bind i2)⟩
  · intro hno
    have rows : ∀ {l : List (CMod F2Mod)} {L : List (AdjoinRoot M)}, List.Forall₂ (F2nM m M) l L →
        (∃ z ∈ L, ∀ a, F2nM m M a z → F2nU.log qs g a = .throw) → ∃ t, ThrowsC (f2nLogRows qs g l) t := by
      intro l L h
      induction h with
      | nil => rintro ⟨z, hz, -⟩; simp at hz
      | @cons a z l L ha hl ih =>
        rintro ⟨u, hu, hu'⟩
        have hcase : F2nU.log qs g a = .throw ∨ ∃ v, F2nU.log qs g a = ok v := by
          by_cases hw : IsUnit w
          · rcases (C61_f2n_log_partial hqs e2 ha hd).1 hw with h | ⟨r, h3, -⟩
            · exact .inl h.1
            · exact .inr ⟨_, h3⟩
          · exact .inl ((C61_f2n_log_partial hqs e2 ha hd).2 hw)
        rcases hcase with h | ⟨v, h⟩
        · obtain ⟨t, ht⟩ := (n_log hqs h2 hd e2 ha).2 h
          exact ⟨_, ht.bind⟩
        · rcases List.mem_cons.1 hu with rfl | hu
          · rw [hu' a ha] at h
            cases h
          · obtain ⟨t, ht⟩ := (n_log hqs h2 hd e2 ha).1 _ h
            obtain ⟨t', ht'⟩ := ih ⟨u, hu, hu'⟩
            exact ⟨_, ht.bind_throws ((put_prints (n_sh ha)).bind_throws ((outLine_prints _).bind_throws ht'))⟩
    obtain ⟨t, ht⟩ := rows k2 (by
      by_cases hu : IsUnit w
      · obtain ⟨r, hr⟩ := C61_violated_f2n e2 hu hd (hno.resolve_left (not_not.2 hu))
        exact ⟨w ^ r, (k3.2 _).2 (hu.pow r), fun a ha => hr a qs ha hqs⟩
      · exact ⟨1, (k3.2 _).2 isUnit_one, fun a ha => (C61_f2n_log_partial hqs e2 ha hd).2 hu⟩)
    exact ⟨t, (prints_lift (show f2n_polymod_list d mm .units = ok l from k1)).then_throws ((prints_out logHead).bind_throws ht)⟩

end

/-! #### Minimal and characteristic polynomials -/

/-- C106, f2n_pm_min_pol and f2n_pm_ch_pol: as for Fp. -/
theorem C106_f2n_pol_partial [Fact (Irreducible M)] (hI : (M.natDegree : Int) < INT_MAX) {k : ℕ} (hk : M.natDegree ≤ k) :
    Each (NLit M) (NResBad m) (fun args => args ≠ []) (fun _ => True)
      (fun several z t => t = lab several (nText z) ": ".toList ++ f2nOut (minpoly (AdjoinRoot m) z) ++ ['\n'])
      (fun args => f2n_pm_min_pol k (x :: y :: args)) ∧
    Each (NLit M) (NResBad m) (fun args => args ≠ []) (fun _ => True)
      (fun several z t => t = lab several (nText z) ": ".toList ++ f2nOut (Algebra.lmul (AdjoinRoot m) (AdjoinRoot M) z).charpoly ++ ['\n'])
      (fun args => f2n_pm_ch_pol k (x :: y :: args)) := by
  have hM : M ≠ 0 := (Fact.out : Irreducible M).ne_zero
  obtain ⟨mm, h1, h2⟩ := n_par hx hy
  obtain ⟨c0, -, hc0⟩ := h2.c0
  have T := Cmd103.tool hc0.cm hc0.hm
  constructor
  · refine each (body := pmPol1 PText.f2nModFromString PText.f2nModShow PText.f2nShow (LinAlg.f2npm_min_poly k) mm) (fun args hne => ?_)
      (fun several cs z hz _ => ⟨_, rfl, ?_⟩) (fun several cs hb => (readArg_exits (n_refuse h2 hM hb)).bind)
    · obtain ⟨u, r, rfl⟩ := List.exists_cons_of_ne_nil hne
      exact skip h1 _
    · obtain ⟨a, e1, e2⟩ := n_read h2 hM hz
      obtain ⟨r, e3, e4⟩ := (C85_f2n_min_partial h30 e2 hI hk).1
      exact ((readArg_prints e1).then ((prints_lift e3).then ((rLabel_prints several (n_sh e2)).bind (putLine_prints (T.sh e4))))).of_eq
        (List.append_assoc _ _ _).symm
  · refine each (body := pmPol1 PText.f2nModFromString PText.f2nModShow PText.f2nShow (LinAlg.f2npm_char_poly k) mm) (fun args hne => ?_)
      (fun several cs z hz _ => ⟨_, rfl, ?_⟩) (fun several cs hb => (readArg_exits (n_refuse h2 hM hb)).bind)
    · obtain ⟨u, r, rfl⟩ := List.exists_cons_of_ne_nil hne
      exact skip h1 _
    · obtain ⟨a, e1, e2⟩ := n_read h2 hM hz
      obtain ⟨r, e3, e4⟩ := (C85_f2n_min_partial h30 e2 hI hk).2.1
      exact ((readArg_prints e1).then ((prints_lift e3).then ((rLabel_prints several (n_sh e2)).bind (putLine_prints (T.sh e4))))).of_eq
        (List.append_assoc _ _ _).symm

/-- C106: for a nilpotent residue other than 0 no number of rounds suffices. -/
theorem C106_violated_f2n_hang (hM : M ≠ 0) {cs : List Char} {z : AdjoinRoot M} (hc : NLit M cs z) (hn : IsNilpotent z) (h0 : z ≠ 0) (k : ℕ)
    (r : List (List Char)) : Hangs (f2n_pm_min_pol k (x :: y :: cs :: r)).run ∧ Hangs (f2n_pm_ch_pol k (x :: y :: cs :: r)).run := by
  have H := F2Mod.cops_ref (m := m) hm.out.ne_zero
  obtain ⟨mm, h1, h2⟩ := n_par hx hy
  obtain ⟨a, e1, e2⟩ := n_read h2 hM hc
  obtain ⟨f, hf, -, -⟩ := e2.hr
  obtain ⟨c, hget, hcr⟩ := sat_false.mp (CPoly.get_coeff_sat H hf 0)
  rw [Nat.cast_zero] at hget
  have hqq : LinAlg.f2n_q a = ok ((2 ^ m.natDegree : ℕ) : Int) := by
    unfold LinAlg.f2n_q
    rw [hget, ok_bind, F2P.find_degree_ok, ok_bind, hcr.hm, F2P.ishl_one (by omega)]
    push_cast
    rfl
  obtain ⟨z0, f1, -⟩ : (F2Mod.prime_subfield_element 0 c.modulus).Ok fun _ => True := by
    unfold F2Mod.prime_subfield_element
    exact (F2Mod.mk'_ok (r := F2P.ofInt 0) F2P.canon_zero.good hcr.cm hcr.hm hm.out.ne_zero).mono fun _ _ => trivial
  obtain ⟨z1, f3, -⟩ : (F2Mod.prime_subfield_element 1 c.modulus).Ok fun _ => True := by
    unfold F2Mod.prime_subfield_element
    exact (F2Mod.mk'_ok (r := F2P.ofInt 1) F2P.canon_one.good hcr.cm hcr.hm hm.out.ne_zero).mono fun _ _ => trivial
  have hp30 : 2 ^ m.natDegree ≤ 2 ^ 30 := Nat.pow_le_pow_right (by norm_num) h30
  have h2q : 2 ≤ 2 ^ m.natDegree := Nat.le_self_pow hm.out.natDegree_pos.ne' 2
  obtain ⟨k1, k2⟩ := pol_hangs H e2 (q := 2 ^ m.natDegree) (by omega) (by unfold INT_MAX; exact_mod_cast hp30.trans (by norm_num))
    (fun i hi => nilpotent_pow hn h0 h2q i hi) ⟨F2P.zero, F2P.one⟩ z0 z1 k
  constructor
  · have e : f2n_pm_min_pol k (x :: y :: cs :: r) = _ := skip h1 _
    rw [e, List.forM_eq_forM, List.forM_cons]
    unfold pmPol1
    rw [skip (readArg_prints e1), bind_assoc]
    refine hangs_lift ?_
    unfold LinAlg.f2npm_min_poly
    rw [hget, ok_bind, f1, ok_bind, f3, ok_bind, hqq, ok_bind]
    exact k1
  · have e : f2n_pm_ch_pol k (x :: y :: cs :: r) = _ := skip h1 _
    rw [e, List.forM_eq_forM, List.forM_cons]
    unfold pmPol1
    rw [skip (readArg_prints e1), bind_assoc]
    refine hangs_lift ?_
    unfold LinAlg.f2npm_char_poly
    rw [hget, ok_bind, f1, ok_bind, f3, ok_bind, hqq, ok_bind]
    exact k2

/-! #### Usage -/

omit hm h30 hx hy in
/-- C106: other numbers of arguments and other selections: status 1 and nothing printed. -/
theorem C106_f2n_usage (x y : List Char) (k : ℕ) (args : List (List Char)) :
    (∀ f, f ≠ "-a".toList ∧ f ≠ "-u".toList ∧ f ≠ "-nu".toList → Exits (f2n_pm_list d qs [f, x, y]) []) ∧
    (args.length ≠ 3 → Exits (f2n_pm_list d qs args) [] ∧ Exits (f2n_pm_tbl d qs args) []) ∧
    (args.length < 2 → Exits (f2n_pm_find_gen d qs args) []) ∧ (args.length < 4 → Exits (f2n_pm_log qs args) []) ∧
    (args.length < 3 → Exits (f2n_pm_ord d qs args) [] ∧ Exits (f2n_pm_min_pol k args) [] ∧ Exits (f2n_pm_ch_pol k args) []) := by
  refine ⟨fun f h => list_flag h, fun h => ?_, fun h => ?_, fun h => ?_, fun h => ?_⟩
  · match args with
    | [] | [_] | [_, _] | _ :: _ :: _ :: _ :: _ => exact ⟨exits_exit1, exits_exit1⟩
    | [_, _, _] => exact absurd rfl h
  · match args with
    | [] | [_] => exact exits_exit1
    | _ :: _ :: _ => simp at h
  · match args with
    | [] | [_] | [_, _] | [_, _, _] => exact exits_exit1
    | _ :: _ :: _ :: _ :: _ => simp at h; omega
  · match args with
    | [] | [_] | [_, _] => exact ⟨exits_exit1, exits_exit1, exits_exit1⟩
    | _ :: _ :: _ :: _ => simp at h; omega

omit h30 hy in
/-- C106: a modulus that is no polynomial. -/
theorem C106_f2n_usage_modulus (hb : F2nBad m y) (z : List Char) (k : ℕ) (r : List (List Char)) :
    Exits (f2n_pm_tbl d qs [x, y, z]) [] ∧ Exits (f2n_pm_ord d qs (x :: y :: z :: r)) [] ∧ (∀ a, Exits (f2n_pm_log qs (x :: y :: z :: a :: r)) []) ∧
    Exits (f2n_pm_min_pol k (x :: y :: z :: r)) [] ∧ Exits (f2n_pm_ch_pol k (x :: y :: z :: r)) [] := by
  obtain ⟨im, h1, h2, h3⟩ := Cmd103.par hx
  have h : Exits (f2nPmArg x y) [] := h1.then_exits (Cmd103.readArg_bad h2 h3 hb)
  exact ⟨h.bind, h.bind, fun a => h.bind, h.bind, h.bind⟩

end f2n

/-! ### Examples -/

section examples

def args (l : List String) : List (List Char) := l.map String.toList
def d3 : CMod IntMod := ⟨⟨0, []⟩, ⟨0, []⟩⟩
def d4 : CMod F2Mod := ⟨⟨0, []⟩, ⟨0, []⟩⟩

example : (fp_pm_list d3 (args ["-a", "3", "101"])).run = ok ("00\n01\n02\n10\n11\n12\n20\n21\n22\n".toList, .val ()) := by decide +kernel
example : (fp_pm_tbl d3 (args ["3", "11", "u*"])).run = ok ("1 2\n2 1\n".toList, .val ()) := by decide +kernel
example : (fp_pm_ord 20 (args ["3", "101", "11"])).run = ok ("8\n".toList, .val ()) := by decide +kernel
example : (fp_pm_ord 20 (args ["3", "101", "0"])).run = ok ("0\n".toList, .val ()) := by decide +kernel
example : (fp_pm_ord 20 (args ["3", "100", ","])).run = .ub := by decide +kernel
example : (fp_pm_min_pol 20 (args ["3", "101", "11", "2"])).run = ok ("11: 112\n02: 11\n".toList, .val ()) := by decide +kernel
example : (fp_pm_ch_pol 20 (args ["3", "101", "11", "2"])).run = ok ("11: 112\n02: 121\n".toList, .val ()) := by decide +kernel
/-- x modulo x^2 is nilpotent -/
example : (fp_pm_min_pol 5 (args ["3", "100", "10"])).run = .timeout := by decide +kernel
example : (f2n_pm_tbl d4 id (args ["7", "1:1", "alog"])).run = ok ("power element\n----- -------\n0 1\n1 2\n2 3\n".toList, .val ()) := by decide +kernel
example : (f2n_pm_ord d4 id (args ["7", "1:1:2", "1:0", "2"])).run = ok ("1:0: 15\n0:2: 3\n".toList, .val ()) := by decide +kernel
example : (f2n_pm_find_gen d4 id (args ["7", "1:1:2", "1:1"])).run = ok ("1:1:2: 1:0\n1:1: 2\n".toList, .val 0) := by decide +kernel
/-- y^2+y over F4 has the divisor y, and nine units -/
example : (f2n_pm_find_gen d4 id (args ["7", "1:1:0"])).run = ok ([], .thrown) := by decide +kernel
example : (f2n_pm_min_pol 20 (args ["7", "1:1:2", "1:0"])).run = ok ("1:1:2\n".toList, .val ()) := by decide +kernel
example : (f2n_pm_ch_pol 20 (args ["7", "1:1:2", "2", "1:0"])).run = ok ("0:2: 1:0:3\n1:0: 1:1:2\n".toList, .val ()) := by decide +kernel

/-- the sort does not matter here -/
example : (f2n_pm_log id (args ["7", "1:0", "2", "3"])).run = ok (("\ng = 2\na = 3\nm = 1:0\nn = 2\nk = 2\ngi = 3\ngk = 3\nagni[0] = 3\nagni[1] = 2\n" ++
    "gk[0]  = 1\ngk[1]  = 3\n-- agni[0] = 3 gk[0] = 1\n-- agni[1] = 2 gk[1] = 3\nagni[0] = 3 gk[0] = 1\nagni[0] = 3 gk[1] = 3\nfound at i=0 j=1\n2\n").toList,
    .val ()) := by decide +kernel
end examples
end Spffl.Props.Cmd106
