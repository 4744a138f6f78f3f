import Verif.Model.CmdRest
import Verif.Props.CmdPmRes
import Verif.Props.Cyclo

/-!
# C108: the commands for polynomials over Fp^n and for cyclotomic polynomials
-/

namespace Spffl.Props.Cmd108
open Res Scan Polynomial Spffl.Cmd PText93 Cmd101
open Cmd103 (stretches)
open CPoly (PRep)
open Spffl.Cyclo (Memo get_cyclo_qpoly)

section fpn
variable {p : ℕ} [hp : Fact p.Prime] {M : (ZMod p)[X]} [hM : Fact (Irreducible M)] {mm : CPoly IntMod} {x y : List Char}

/-! ### Text -/

/-- The text of a polynomial over Fp[x]/(M): polynomials over Fp with colons in between, the leading coefficient first. -/
def FpnText (M : (ZMod p)[X]) (cs : List Char) (f : (AdjoinRoot M)[X]) : Prop :=
  ∃ xs, stretches cs ≠ [] ∧ List.Forall₂ (FpnReads M) (stretches cs) xs ∧ f = PText.horner xs

/-- A text that is no polynomial: there is no coefficient, or one that is refused comes after others that are not. -/
def FpnNone (M : (ZMod p)[X]) (cs : List Char) : Prop :=
  stretches cs = [] ∨ ∃ as t bs xs, stretches cs = as ++ t :: bs ∧ List.Forall₂ (FpnReads M) as xs ∧ FpnBad p t

/-- What is printed: the representatives of least degree of the coefficients. -/
noncomputable def fpnOut (f : (AdjoinRoot M)[X]) : List Char :=
  List.intercalate [':'] ((List.range (f.natDegree + 1)).reverse.map fun i => fpOut (low M (f.coeff i)))

theorem tool (hb : p ≤ 46341) (hm : PRep (IntMod.Rep p) mm M) : ToolRef (fpnTool mm) (PRep (CMod.Rep (IntMod.Rep p) M)) (FpnText M) fpnOut where
  read := by
    rintro cs f ⟨xs, h1, h2, rfl⟩
    obtain ⟨r, e1, b, rfl, e2⟩ := (C93_fpn_from_string hb hm hM.out.ne_zero rfl).1 xs h1 h2
    refine ⟨b, ?_, e2⟩
    show (do let r ← PText.fpnFromString mm cs; ok (parsed r)) = _
    rw [e1]
    rfl
  sh := by
    intro a f h
    obtain ⟨q, h1, h2⟩ := C93_fpn_print h
    refine h2.trans ?_
    congr 1
    unfold fpnOut
    congr 1
    refine List.map_congr_left fun i hi => ?_
    have hi' : i < f.natDegree + 1 := by simpa using hi
    rw [← (h1 i hi').2, low_mk (h1 i hi').1]

theorem read_none (hb : p ≤ 46341) (hm : PRep (IntMod.Rep p) mm M) {cs : List Char} (h : FpnNone M cs) : (fpnTool mm).read cs = ok none := by
  suffices hs : (PText.fpnFromString mm cs).Ok fun r => parsed r = none by
    obtain ⟨r, e1, e2⟩ := hs
    show (do let r ← PText.fpnFromString mm cs; ok (parsed r)) = _
    rw [e1, ok_bind, e2]
  have key := C93_fpn_from_string hb hm hM.out.ne_zero (cs := cs) rfl
  rcases h with h | ⟨as, t, bs, xs, h1, h2, h3⟩
  · exact ⟨_, key.2.2 h, rfl⟩
  · refine ((key.2.1 as t bs xs h1 h2).1 h3).mono ?_
    rintro r ⟨b, rfl⟩
    rfl

variable (hb : p ≤ 46341) (hx : IsInt x p) (hy : FpDenotes p y M)
include hb hx hy

omit hM in
/-- The first two arguments. -/
theorem par : ∃ mm, Prints (fpPmArg x y) [] mm ∧ PRep (IntMod.Rep p) mm M := by
  obtain ⟨mm, e, h⟩ := (Cmd102.tool hb).read hy
  exact ⟨mm, (intArg_prints hx).then (readArg_prints e), h⟩

/-- C108, fpn_p_gcd: a polynomial whose divisors are the common divisors. -/
theorem C108_gcd {z w : List Char} {u v : (AdjoinRoot M)[X]} (hz : FpnText M z u) : (FpnText M w v →
      ∃ g, Prints (fpn_p_gcd [x, y, z, w]) (fpnOut g ++ ['\n']) () ∧ ∀ d, d ∣ g ↔ d ∣ u ∧ d ∣ v) ∧
    (∀ bad, FpnNone M bad → Exits (fpn_p_gcd [x, y, bad, w]) [] ∧ Exits (fpn_p_gcd [x, y, z, bad]) []) := by
  obtain ⟨mm, h1, h2⟩ := par hb hx hy
  have e : ∀ z w, fpn_p_gcd [x, y, z, w] = gcdCmd (fpnTool mm) z w := fun z w => skip h1 _
  have T := tool hb h2
  have C := FpMod.copsNeg_ref hb hM.out.ne_zero
  simp only [e]
  refine ⟨fun hw => gcdCmd_prints T hz hw fun a b ha hb => ?_, fun bad hbad => ⟨(readArg_exits (read_none hb h2 hbad)).bind, ?_⟩⟩
  · obtain ⟨c, e1, g, e2, e3⟩ := sat_false.1 (CPoly.gcd_sat C ha hb)
    rw [FpMod.copsNeg, CPoly.gcd_swap] at e1
    exact ⟨c, g, e1, e2, fun d => ⟨fun h => ⟨h.trans e3.1, h.trans e3.2.1⟩, fun h => e3.2.2 d h.1 h.2⟩⟩
  · obtain ⟨a, ha, -⟩ := T.read hz
    exact (readArg_prints ha).then_exits (readArg_exits (read_none hb h2 hbad)).bind

omit hb hx hy hM in
theorem ext_eq {z w : List Char} (h : Prints (fpPmArg x y) [] mm) : fpn_p_gcd ["-e".toList, x, y, z, w] = extCmd (fpnTool mm) false z w := by
  have : fpn_p_gcd ["-e".toList, x, y, z, w] = fpPmArg x y >>= fun m => extCmd (fpnTool m) false z w := rfl
  rw [this, skip h]

/-- C108, fpn_p_gcd -e: if the second polynomial is not zero and the behaviour is defined, the printed line is a true equation with the greatest common
divisor on the left.  Missing: the behaviour is undefined where a polynomial is subtracted from one of lower degree (`C108_violated_ext`). -/
theorem C108_ext_gcd_partial {z w : List Char} {u v : (AdjoinRoot M)[X]} (hz : FpnText M z u) : (FpnText M w v → v ≠ 0 →
      IsUb (fpn_p_gcd ["-e".toList, x, y, z, w]) ∨
      ∃ g r s, Prints (fpn_p_gcd ["-e".toList, x, y, z, w]) (fpnOut g ++ " = ".toList ++ fpnOut r ++ " * ".toList ++ fpnOut u ++ " + ".toList ++
          fpnOut s ++ " * ".toList ++ fpnOut v ++ ['\n']) () ∧ g = r * u + s * v ∧ ∀ d, d ∣ g ↔ d ∣ u ∧ d ∣ v) ∧
    (∀ bad, FpnNone M bad → Exits (fpn_p_gcd ["-e".toList, x, y, bad, w]) [] ∧ Exits (fpn_p_gcd ["-e".toList, x, y, z, bad]) []) := by
  obtain ⟨mm, h1, h2⟩ := par hb hx hy
  have T := tool hb h2
  simp only [ext_eq h1]
  refine ⟨fun hw hv => ?_, fun bad hbad => ⟨(readArg_exits (read_none hb h2 hbad)).bind, ?_⟩⟩
  · obtain ⟨a, e1, ha⟩ := T.read hz
    obtain ⟨b, e2, hb'⟩ := T.read hw
    have key := CPoly.ext_gcd_sat (FpMod.cops_ref hb hM.out.ne_zero) ha hb' hv
    cases hext : CPoly.ext_gcd FpMod.cops a b with
    | ub =>
      left
      exact Prints.bind_ub (readArg_prints e1) (Prints.bind_ub (readArg_prints e2) (ub_lift hext).bind)
    | throw => rw [hext] at key; exact key.elim
    | timeout => rw [hext] at key; exact key.elim
    | ok r =>
      right
      rw [hext] at key
      obtain ⟨g, r', s', k1, k2, k3, k4, k5⟩ := key
      refine ⟨g, r', s', ?_, by rw [k5]; ring, fun d => ⟨fun h => ⟨h.trans k4.1, h.trans k4.2.1⟩, fun h => k4.2.2 d h.1 h.2⟩⟩
      obtain ⟨g0, r0, s0⟩ := r
      refine (readArg_prints e1).then ((readArg_prints e2).then ((prints_lift hext).then ?_))
      refine ((put_prints (T.sh k1)).bind ((prints_out _).bind ((put_prints (T.sh k2)).bind ((prints_out _).bind ((put_prints (T.sh ha)).bind
        ((prints_out _).bind ((put_prints (T.sh k3)).bind ((prints_out _).bind ((putLine_prints (T.sh hb')).bind (prints_pure ())))))))))).of_eq ?_
      simp only [List.append_assoc, List.append_nil]
  · obtain ⟨a, ha, -⟩ := T.read hz
    exact (readArg_prints ha).then_exits (readArg_exits (read_none hb h2 hbad)).bind

/-- C108, violated, fpn_p_gcd -e: it throws if the second polynomial is zero, although the first is the greatest common divisor, 1 times itself. -/
theorem C108_violated_ext_zero {z w : List Char} {u : (AdjoinRoot M)[X]} (hz : FpnText M z u) (hw : FpnText M w 0) :
    ThrowsC (fpn_p_gcd ["-e".toList, x, y, z, w]) [] ∧ u = 1 * u + 0 * 0 ∧ ∀ d, d ∣ u ↔ d ∣ u ∧ d ∣ 0 := by
  obtain ⟨mm, h1, h2⟩ := par hb hx hy
  have T := tool hb h2
  refine ⟨?_, by ring, by simp⟩
  rw [ext_eq h1]
  obtain ⟨a, e1, ha⟩ := T.read hz
  obtain ⟨b, e2, hb'⟩ := T.read hw
  have C := FpMod.copsNeg_ref hb hM.out.ne_zero
  have : CPoly.ext_gcd FpMod.cops a b = .throw := by
    have hq : CPoly.quot_and_rem FpMod.cops a b = .throw := by
      have := CPoly.quot_and_rem_zero C ha hb'
      rw [FpMod.copsNeg, CPoly.quot_and_rem_swap] at this
      exact this.resolve_right fun h => h.1
    obtain ⟨o, k1, -⟩ := sat_false.1 (CPoly.psub_sat (v := 1) C ha (by decide))
    obtain ⟨o', k2, -⟩ := sat_false.1 (CPoly.psub_sat (v := 0) C ha (by decide))
    rw [FpMod.copsNeg, CPoly.psub_swap] at k1 k2
    unfold CPoly.ext_gcd
    rw [k1, ok_bind, k2, ok_bind]
    show CPoly.extLoop FpMod.cops (b.degree + 1 + 1) _ = _
    unfold CPoly.extLoop
    rw [hq]
    rfl
  exact (readArg_prints e1).then_throws ((readArg_prints e2).then_throws (throws_lift this).bind)

/-- C108, violated: the behaviour is undefined for a polynomial whose only coefficient consists of commas. -/
theorem C108_violated_commas {z w as : List Char} {u : (AdjoinRoot M)[X]} (hz : FpnText M z u) (hw : stretches w = [as]) (hne : as ≠ [])
    (hc : ∀ c ∈ as, c = ',') : IsUb (fpn_p_gcd [x, y, z, w]) ∧ IsUb (fpn_p_gcd [x, y, w, z]) := by
  obtain ⟨mm, h1, h2⟩ := par hb hx hy
  have T := tool hb h2
  have e : ∀ z w, fpn_p_gcd [x, y, z, w] = gcdCmd (fpnTool mm) z w := fun z w => skip h1 _
  have hub : (fpnTool mm).read w = .ub := by
    have := ((C93_fpn_from_string hb h2 hM.out.ne_zero (cs := w) rfl).2.1 [] as [] [] hw .nil).2 [] as [] (by simp) (by simp) hne hc (by simp)
    show (do let r ← PText.fpnFromString mm w; ok (parsed r)) = _
    rw [this]
    rfl
  have hr : IsUb (readArg (fpnTool mm).read w) := (ub_lift hub).bind
  simp only [e]
  obtain ⟨a, e1, ha⟩ := T.read hz
  exact ⟨Prints.bind_ub (readArg_prints e1) hr.bind, hr.bind⟩

/-- C108, fpn_p_qp: integer polynomials modulo p.  Missing: rational coefficients cannot be written; the empty text and the coefficient -2^31, which are
undefined behaviour (C93). -/
theorem C108_qp_partial : Each IsQInt NotQInt (fun args => args ≠ []) (fun _ => True)
    (fun _ F t => t = fpnOut (F.map (Int.castRingHom (AdjoinRoot M))) ++ ['\n']) (fun args => fpn_p_qp (x :: y :: args)) := by
  obtain ⟨mm, h1, h2⟩ := par hb hx hy
  refine each (body := fun _ => pQp1 (fpnTool mm).sh fun q => Cyclo.fpn_poly_from_qpoly q mm) (fun args hne => ?_) (fun several cs F h _ => ?_)
    (fun several cs h => (readArg_exits (read_notQ h)).bind)
  · obtain ⟨z, r, rfl⟩ := List.exists_cons_of_ne_nil hne
    exact skip h1 _
  · obtain ⟨q, e1, e2⟩ := read_qint h
    obtain ⟨r, e3, e4⟩ := Cyclo.fpn_from_ok hb h2 hM.out.ne_zero (qint_rat e2) (fun i => by simpa using hp.out.one_lt.ne')
      (F.map (Int.castRingHom (AdjoinRoot M))) (fun i => by simp)
    exact ⟨_, rfl, (readArg_prints e1).then ((prints_lift e3).then (putLine_prints ((tool hb h2).sh e4)))⟩

end fpn

/-- C108: other arguments. -/
theorem C108_usage {x : List Char} (args : List (List Char)) :
    (args.length ≠ 4 → args.length ≠ 5 → Exits (fpn_p_gcd args) []) ∧ (args.length < 3 → Exits (fpn_p_qp args) []) ∧ Exits (q_cyclotomic []) [] ∧
    (∀ e, e ≠ "-e".toList → ∀ y z w, Exits (fpn_p_gcd [e, x, y, z, w]) []) ∧
    (NotInt x → (∀ y z w, Exits (fpn_p_gcd [x, y, z, w]) [] ∧ Exits (fpn_p_gcd ["-e".toList, x, y, z, w]) []) ∧
      ∀ y z r, Exits (fpn_p_qp (x :: y :: z :: r)) []) ∧
    ∀ p : ℕ, p.Prime → p ≤ 46341 → IsInt x p → ∀ y, Cmd102.FpBad p y →
      (∀ z w, Exits (fpn_p_gcd [x, y, z, w]) [] ∧ Exits (fpn_p_gcd ["-e".toList, x, y, z, w]) []) ∧ ∀ z r, Exits (fpn_p_qp (x :: y :: z :: r)) [] := by
  have hpar : ∀ y, Exits (fpPmArg x y) [] →
      (∀ z w, Exits (fpn_p_gcd [x, y, z, w]) [] ∧ Exits (fpn_p_gcd ["-e".toList, x, y, z, w]) []) ∧ ∀ z r, Exits (fpn_p_qp (x :: y :: z :: r)) [] :=
    fun y h => ⟨fun z w => ⟨h.bind, (h.bind : Exits (fpPmArg x y >>= _) [])⟩, fun z r => h.bind⟩
  refine ⟨fun h h' => ?_, fun h => ?_, rfl, fun e he y z w => ?_, fun h => ?_, fun p hp hb hx y hy => ?_⟩
  · match args, h, h' with
    | [], _, _ => rfl
    | [_], _, _ => rfl
    | [_, _], _, _ => rfl
    | [_, _, _], _, _ => rfl
    | _ :: _ :: _ :: _ :: _ :: _ :: _, _, _ => rfl
  · match args, h with
    | [], _ => rfl
    | [_], _ => rfl
    | [_, _], _ => rfl
  · unfold fpn_p_gcd
    exact (congrArg (Exits · []) (if_pos he)).mpr rfl
  · exact ⟨fun y z w => (hpar y (intArg_exits h).bind).1 z w, fun y z r => (hpar y (intArg_exits h).bind).2 z r⟩
  · have : Fact p.Prime := ⟨hp⟩
    exact hpar y ((intArg_prints hx).then_exits (Cmd102.readArg_bad hb hy))

/-- C108, violated: the greatest common divisor of 10:0:1 and 1:1 modulo 101 over F3 is printed, but not the cofactors. -/
theorem C108_violated_ext : Prints (fpn_p_gcd ["3".toList, "101".toList, "10:0:1".toList, "1:1".toList]) "11\n".toList () ∧
    IsUb (fpn_p_gcd ["-e".toList, "3".toList, "101".toList, "10:0:1".toList, "1:1".toList]) := by
  have h1 : (fpn_p_gcd ["3".toList, "101".toList, "10:0:1".toList, "1:1".toList]).run = ok ("11\n".toList, .val ()) := by decide +kernel
  have h2 : (fpn_p_gcd ["-e".toList, "3".toList, "101".toList, "10:0:1".toList, "1:1".toList]).run = .ub := by decide +kernel
  exact ⟨h1, h2⟩

/-! ### Cyclotomic polynomials -/

/-- The coefficients, the leading one first. -/
noncomputable def cycText (n : ℕ) : List Char :=
  List.intercalate [','] ((List.range ((cyclotomic n ℤ).natDegree + 1)).reverse.map fun i => showInt ((cyclotomic n ℤ).coeff i))

theorem cyc_sh {n : ℕ} {q : CPoly IntRat} (h : Cyclo.IsCyclo n q) : PText.qShow q = ok (cycText n) := by
  unfold PText.qShow cycText
  have hd := PText.down_ok (f := fun i => (CPoly.get_coeff IntRat.cops q i >>= fun c => ok (showRat c)))
    (g := fun i => showInt ((cyclotomic n ℤ).coeff i)) (n := q.degree + 1) (fun i hi => by
      unfold CPoly.get_coeff
      rw [if_neg (by omega), if_neg (by omega), Int.toNat_natCast]
      unfold rd
      rw [h.2 i (by rw [← h.1]; omega)]
      rfl)
  rw [hd, ok_bind, h.1, natDegree_cyclotomic]

theorem cyc_loop {args : List (List Char)} {ns : List ℕ} (h : List.Forall₂ (fun cs (n : ℕ) => IsInt cs n) args ns) (hpos : ∀ n ∈ ns, 1 ≤ n)
    {m : Memo} (hm : Cyclo.MemoOk m) :
    (IsUb (cycloLoop args m) ∨ Prints (cycloLoop args m) (ns.flatMap fun n => cycText n ++ ['\n']) ()) ∧
    ((∀ n ∈ ns, n ≤ 33 ∨ IsPrimePow n) → ∀ rest, ∃ m', Cyclo.MemoOk m' ∧
      ∀ t, (∀ a, Prints (cycloLoop rest m') t a → Prints (cycloLoop (args ++ rest) m) ((ns.flatMap fun n => cycText n ++ ['\n']) ++ t) a) ∧
        (Exits (cycloLoop rest m') t → Exits (cycloLoop (args ++ rest) m) ((ns.flatMap fun n => cycText n ++ ['\n']) ++ t)) ∧
        (ThrowsC (cycloLoop rest m') t → ThrowsC (cycloLoop (args ++ rest) m) ((ns.flatMap fun n => cycText n ++ ['\n']) ++ t))) := by
  induction h generalizing m with
  | nil => exact ⟨.inr (prints_pure ()), fun _ rest => ⟨m, hm, fun t => ⟨fun a h => h, fun h => h, fun h => h⟩⟩⟩
  | @cons cs n args ns h1 h2 ih =>
    have hn : n ≤ 2147483647 := by have := h1.1; unfold InInt at this; omega
    have hn1 := hpos n (by simp)
    have hpos' : ∀ n ∈ ns, 1 ≤ n := fun k hk => hpos k (by simp [hk])
    constructor
    · have key := C71_qpoly_partial n hn1 hn m hm
      cases hg : get_cyclo_qpoly n m with
      | ub => exact .inl (Prints.bind_ub (intArg_prints h1) (ub_lift hg).bind)
      | throw => rw [hg] at key; exact key.elim
      | timeout => rw [hg] at key; exact key.elim
      | ok s =>
        rw [hg] at key
        obtain ⟨k1, k2⟩ := key
        rcases (ih hpos' k2).1 with h | h
        · exact .inl (Prints.bind_ub (intArg_prints h1) (Prints.bind_ub (prints_lift hg) (Prints.bind_ub (putLine_prints (cyc_sh k1)) h)))
        · exact .inr ((intArg_prints h1).then ((prints_lift hg).then ((putLine_prints (cyc_sh k1)).bind h)))
    · intro ht rest
      have : ∃ q m', get_cyclo_qpoly n m = ok (q, m') ∧ Cyclo.IsCyclo n q ∧ Cyclo.MemoOk m' := by
        rcases ht n (by simp) with h | h
        · exact C71_qpoly_small n hn1 h m hm
        · obtain ⟨p, k, hp, -, rfl⟩ := (isPrimePow_nat_iff _).1 h
          exact C71_qpoly_prime_power p k hp hn m hm
      obtain ⟨q, m', hg, k1, k2⟩ := this
      obtain ⟨m'', j1, j2⟩ := (ih hpos' k2).2 (fun k hk => ht k (by simp [hk])) rest
      refine ⟨m'', j1, fun t => ?_⟩
      have e : (List.flatMap (fun n => cycText n ++ ['\n']) (n :: ns)) ++ t = (cycText n ++ ['\n']) ++ (List.flatMap (fun n => cycText n ++ ['\n']) ns ++ t) := by
        rw [List.flatMap_cons, List.append_assoc]
      rw [e]
      refine ⟨fun a h => ?_, fun h => ?_, fun h => ?_⟩
      · exact (intArg_prints h1).then ((prints_lift hg).then ((putLine_prints (cyc_sh k1)).bind ((j2 t).1 a h)))
      · exact (intArg_prints h1).then_exits ((prints_lift hg).then_exits ((putLine_prints (cyc_sh k1)).bind_exits ((j2 t).2.1 h)))
      · exact (intArg_prints h1).then_throws ((prints_lift hg).then_throws ((putLine_prints (cyc_sh k1)).bind_throws ((j2 t).2.2 h)))

/-- C108, q_cyclotomic: a line for each argument with the coefficients of the cyclotomic polynomial, unless the behaviour is undefined, which it is not for
numbers up to 33 and prime powers.  After such arguments, a number below 1 ends with an exception and what is no number with status 1. -/
theorem C108_cyclotomic_partial {args : List (List Char)} {ns : List ℕ} (h : List.Forall₂ (fun cs (n : ℕ) => IsInt cs n) args ns)
    (hpos : ∀ n ∈ ns, 1 ≤ n) :
    (args ≠ [] → IsUb (q_cyclotomic args) ∨ Prints (q_cyclotomic args) (ns.flatMap fun n => cycText n ++ ['\n']) ()) ∧
    ((∀ n ∈ ns, n ≤ 33 ∨ IsPrimePow n) →
      (args ≠ [] → Prints (q_cyclotomic args) (ns.flatMap fun n => cycText n ++ ['\n']) ()) ∧
      (∀ bad rest, NotInt bad → Exits (q_cyclotomic (args ++ bad :: rest)) (ns.flatMap fun n => cycText n ++ ['\n'])) ∧
      ∀ bad rest (k : ℤ), IsInt bad k → k < 1 → ThrowsC (q_cyclotomic (args ++ bad :: rest)) (ns.flatMap fun n => cycText n ++ ['\n'])) := by
  have e : ∀ args, args ≠ [] → q_cyclotomic args = cycloLoop args Memo.init := by
    intro args h
    cases args with
    | nil => exact absurd rfl h
    | cons => rfl
  have key := cyc_loop h hpos C71_memo_start
  refine ⟨fun hne => by rw [e _ hne]; exact key.1, fun ht => ⟨fun hne => ?_, fun bad rest hb => ?_, fun bad rest k hk hk1 => ?_⟩⟩
  · obtain ⟨m, -, hm⟩ := key.2 ht []
    have := (hm []).1 () (prints_pure ())
    rw [e _ hne]
    simpa using this
  · obtain ⟨m, -, hm⟩ := key.2 ht (bad :: rest)
    have := (hm []).2.1 (intArg_exits hb).bind
    rw [e _ (by simp)]
    simpa using this
  · obtain ⟨m, -, hm⟩ := key.2 ht (bad :: rest)
    have := (hm []).2.2 ((intArg_prints hk).then_throws (throws_lift (C71_nonpositive k hk1 m)).bind)
    rw [e _ (by simp)]
    simpa using this

/-! ### Examples -/

section Examples
private def args (l : List String) : List (List Char) := l.map String.toList

example : (fpn_p_gcd (args ["3", "101", "1:0:1", "1:10"])).run = ok ("1:10\n".toList, .val ()) := by decide +kernel
example : (fpn_p_gcd (args ["-e", "3", "101", "1:10", "1:0:1"])).run = ok ("1:10 = 1 * 1:10 + 0 * 1:0:1\n".toList, .val ()) := by decide +kernel
example : (fpn_p_gcd (args ["-e", "3", "101", "1:10", "0"])).run = ok ([], .thrown) := by decide +kernel
example : (fpn_p_gcd (args ["3", "101", "1:10", ","])).run = .ub := by decide +kernel
example : (fpn_p_gcd (args ["3", "101", "1:10", ":"])).run = ok ([], .exit1) := by decide +kernel
example : (fpn_p_qp (args ["3", "101", "120", "3,-1,5"])).run = ok ("1:2:0\n2:2\n".toList, .val ()) := by decide +kernel
example : (q_cyclotomic (args ["1", "2", "12"])).run = ok ("1,-1\n1,1\n1,0,-1,0,1\n".toList, .val ()) := by decide +kernel
example : (q_cyclotomic (args ["1", "0", "12"])).run = ok ("1,-1\n".toList, .thrown) := by decide +kernel

private theorem two : IsInt "2".toList (2 : ℕ) := by
  have : showInt 2 = "2".toList := by decide +kernel
  rw [← this]
  exact isInt_show (by unfold InInt; omega)

example : Prints (q_cyclotomic ["2".toList, "2".toList]) ([2, 2].flatMap fun n => cycText n ++ ['\n']) () :=
  ((C108_cyclotomic_partial (.cons two (.cons two .nil)) (by simp)).2 (by simp)).1 (by simp)

end Examples

end Spffl.Props.Cmd108
