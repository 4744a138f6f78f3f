import Verif.Proof.CmdCalc
import Verif.Props.CmdRest
import Verif.Props.ExprMat

/-!
# C109: the calculator commands
-/

namespace Spffl.Props.Cmd109
open Res Scan Polynomial Spffl.Cmd Spffl.Expr PText93 VText94 Expr90 Expr96 Expr98
open F2P (Canon toPoly)
open CPoly (PRep polyLt)
open Cmd101 (IsHex)

/-! ### What is claimed -/

/-- What the command `c` does, given the value of the expression: it prints a text of that value, or `1` or `0` for a comparison, and a newline;
it throws, with nothing printed, when there is no value.  Where `U`, the behaviour may be undefined instead.  `k` is what follows the
expression. -/
def CAnswers {K : Type} (U : Prop) (Text : List Char → K → Prop) (k : List String) (c : Cmd Unit) : Option (K ⊕ Bool) → Prop
  | some (.inl x) => (∃ w, Ends k c (w ++ ['\n']) ∧ Text w x) ∨ (U ∧ IsUb c)
  | some (.inr b) => Ends k c [if b then '1' else '0', '\n'] ∨ (U ∧ IsUb c)
  | none => ThrowsC c [] ∨ (U ∧ IsUb c)

/-- The same for matrices. -/
def CMAnswers {F : Type} (U : Prop) (Text : List Char → F → Prop) (k : List String) (c : Cmd Unit) (S : Option (MVal F) → Prop) : Prop :=
  (∃ w v, Ends k c w ∧ S (some v) ∧ MShows Text w v) ∨ (ThrowsC c [] ∧ S none) ∨ (U ∧ IsUb c)

/-- The same for vectors. -/
def CVAnswers {F : Type} {n : ℕ} (U : Prop) (Text : List Char → F → Prop) (k : List String) (c : Cmd Unit) : Option (VVal n F) → Prop
  | some v => (∃ w, Ends k c w ∧ VShows Text w v) ∨ (U ∧ IsUb c)
  | none => ThrowsC c [] ∨ (U ∧ IsUb c)

theorem of_answers {K : Type} {U : Prop} {Text : List Char → K → Prop} {k : List String} {op : Res (List (List Char))} {c : Cmd Unit}
    {d : Option (K ⊕ Bool)} (F : Follows ['\n'] k op c) (h : Answers U Text op d) : CAnswers U Text k c d := by
  match d, h with
  | some (.inl x), .inl ⟨w, h1, h2⟩ => exact .inl ⟨w, F.ok h1, h2⟩
  | some (.inl x), .inr ⟨hu, h⟩ => exact .inr ⟨hu, F.ub h⟩
  | some (.inr b), .inl h => exact .inl (F.ok h)
  | some (.inr b), .inr ⟨hu, h⟩ => exact .inr ⟨hu, F.ub h⟩
  | none, .inl h => exact .inl (F.throw h)
  | none, .inr ⟨hu, h⟩ => exact .inr ⟨hu, F.ub h⟩

theorem of_manswers {K : Type} {U : Prop} {Text : List Char → K → Prop} {k : List String} {op : Res (List (List Char))} {c : Cmd Unit}
    {S : Option (MVal K) → Prop} (F : Follows [] k op c) (h : MAnswers U Text op S) : CMAnswers U Text k c S := by
  rcases h with ⟨w, v, h1, h2, h3⟩ | ⟨h1, h2⟩ | ⟨hu, h⟩
  · exact .inl ⟨w, v, by simpa using F.ok h1, h2, h3⟩
  · exact .inr (.inl ⟨F.throw h1, h2⟩)
  · exact .inr (.inr ⟨hu, F.ub h⟩)

theorem of_vanswers {K : Type} {n : ℕ} {U : Prop} {Text : List Char → K → Prop} {k : List String} {op : Res (List (List Char))} {c : Cmd Unit}
    {d : Option (VVal n K)} (F : Follows [] k op c) (h : VAnswers U Text op d) : CVAnswers U Text k c d := by
  match d, h with
  | some v, .inl ⟨w, h1, h2⟩ => exact .inl ⟨w, by simpa using F.ok h1, h2⟩
  | some v, .inr ⟨hu, h⟩ => exact .inr ⟨hu, F.ub h⟩
  | none, .inl h => exact .inl (F.throw h)
  | none, .inr ⟨hu, h⟩ => exact .inr ⟨hu, F.ub h⟩

variable {t : Tree} {ts k : List String}

/-- The arguments, as the program gets them. -/
abbrev argv (ts k : List String) : List (List Char) := (ts ++ k).map String.toList

/-! ### All calculators -/

/-- C109: a calculator that returns has printed the value of its arguments, all of them, and nothing else.  One that throws has printed
nothing, or the value of the first few arguments.  No calculator leaves the program, so the status is 0 in any case. -/
theorem C109_only {A : Type} {D : Dialect A} {G : Gram} {sh : A → Res (List Char)} (H : Fits D G) (args : List (List Char)) :
    (∀ t, Prints (calcCmd D sh args) t () → (args = [] ∧ t = []) ∨
      ∃ tr v, Derives G .Q tr (args.map String.ofList) ∧ eval D false tr = ok v ∧ sh v = ok t) ∧
    (∀ t, ThrowsC (calcCmd D sh args) t → t = [] ∨
      ∃ a k tr v, args.map String.ofList = a ++ k ∧ k ≠ [] ∧ Derives G .Q tr a ∧ eval D false tr = ok v ∧ sh v = ok t) ∧
    (∀ t, ¬ Exits (calcCmd D sh args) t) := calc_sound H args

/-- C109, violated: an expression followed by a closing bracket and anything is an error, and its value is printed all the same; the
status is 0.  `name` is the name of the command in the table. -/
theorem C109_violated_extra {A : Type} {D : Dialect A} {G : Gram} {sh : A → Res (List Char)} (H : Fits D G) (h : Derives G .Q t ts) {v : A}
    {w : List Char} (hv : eval D false t = ok v) (hw : sh v = ok w) {r : String} {l : List String} (hr : r ∈ [")", "]"]) (name : List Char) :
    ThrowsC (calcCmd D sh (argv ts (r :: l))) w ∧ spiff [(name, calcCmd D sh)] (name :: argv ts (r :: l)) = ok (w, 0) := by
  have e : ThrowsC (calcCmd D sh (argv ts (r :: l))) w := by
    rw [argv, calc_derives H h (.inr ⟨r, l, rfl, hr⟩), hv, if_neg (by simp)]
    show ThrowsC (pure v >>= fun v => (lift (sh v) >>= fun t => out t) >>= fun _ => lift .throw) w
    rw [pure_bind, hw, lift_ok, pure_bind]
    simpa using (prints_out w).bind_throws (f := fun _ => lift .throw) (throws_lift (α := Unit) rfl)
  refine ⟨e, ?_⟩
  have e2 : dispatch [(name, calcCmd D sh)] name (argv ts (r :: l)) = some (calcCmd D sh (argv ts (r :: l))) := if_pos rfl
  unfold spiff
  simp only [e2]
  rw [e]
  rfl

/-! ### Integers -/

/-- The value of an expression with the operations of `int`, if it has one and no operation overflows on the way: division is truncated. -/
def zval : Tree → Option Int
  | .lit s => intLit s
  | .un .uminus t => do let x ← zval t; if InInt (-x) then some (-x) else none
  | .bin .plus t u => do let x ← zval t; let y ← zval u; if InInt (x + y) then some (x + y) else none
  | .bin .minus t u => do let x ← zval t; let y ← zval u; if InInt (x - y) then some (x - y) else none
  | .bin .mul t u => do let x ← zval t; let y ← zval u; if InInt (x * y) then some (x * y) else none
  | .bin .div t u => do let x ← zval t; let y ← zval u; if y ≠ 0 ∧ InInt (x.tdiv y) then some (x.tdiv y) else none
  | .bin .mod t u => do let x ← zval t; let y ← zval u; if y ≠ 0 ∧ InInt (x.tdiv y) then some (x.tmod y) else none
  | _ => none

/-- An expression without powers and comparisons, whose literals are integers. -/
inductive Plain : Tree → Prop
  | lit {s : String} {n : Int} : intLit s = some n → Plain (.lit s)
  | neg {t : Tree} : Plain t → Plain (.un .uminus t)
  | bin {o : Op} {t u : Tree} : o ∈ [Op.plus, .minus, .mul, .div, .mod] → Plain t → Plain u → Plain (.bin o t u)

/-- The evaluator of z_op. -/
abbrev zD : Dialect (Atom Int) := scalar Expr.intOps 0 1 (fun s => Scan.readInt s.toList) fun s => Scan.readInt s.toList

theorem zeval (h : Plain t) : eval zD false t = match zval t with
    | some v => ok (.val v)
    | none => .ub := by
  induction h with
  | @lit s n h =>
    have h' : Scan.readInt s.toList = ok n := by
      unfold intLit at h
      split at h <;> simp_all
    simp [Expr.eval, zval, h, scalar, h']
  | neg h ih =>
    simp only [Expr.eval, ih, zval]
    cases zval _ with
    | none => rfl
    | some x =>
      show (ineg x >>= fun c => ok (Atom.val c)) = _
      unfold ineg chk
      by_cases hx : InInt (-x) <;> simp [hx]
  | @bin o t u ho h1 h2 ih1 ih2 =>
    simp only [List.mem_cons, List.not_mem_nil, or_false] at ho
    rcases ho with rfl | rfl | rfl | rfl | rfl <;>
    · simp only [Expr.eval, ih1, Bool.false_or, reduceCtorEq, decide_false, ih2, zval]
      cases zval t with
      | none => rfl
      | some x =>
        cases zval u with
        | none => rfl
        | some y =>
          simp only [ok_bind, scalar, scalarBin, Expr.intOps, iadd, isub, imul, idiv, imod, chk, Option.bind_eq_bind, Option.bind_some]
          split_ifs <;> simp_all

/-- C109, z_op: for an expression without powers and comparisons, the value is printed if no operation overflows and no divisor is zero;
otherwise the behaviour is undefined.  Missing for the full property: powers, for which the order of the multiplications matters, and
comparisons. -/
theorem C109_z_op_partial (hd : Derives scalarG .Q t ts) (hk : Tail k) (hp : Plain t) :
    (∀ v, zval t = some v → Ends k (z_op (argv ts k)) (showInt v ++ ['\n'])) ∧ (zval t = none → IsUb (z_op (argv ts k))) := by
  have F := calc_follows (D := zD) (scalar_fits _ _ _ _ _) hd hk (line_eq (showNum Scan.showInt))
  rw [parse_derives (scalar_fits _ _ _ _ _) hd, zeval hp] at F
  refine ⟨fun v hv => F.ok ?_, fun h => F.ub ?_⟩
  · rw [hv]; rfl
  · rw [h]; rfl

/-! ### Rationals, residues and bits -/

/-- C109, q_op: the value is printed in lowest terms, unless an `int` overflows. -/
theorem C109_q_op_partial (hd : Derives scalarG .Q t ts) (hk : Tail k) :
    CAnswers True (fun w x => ∃ a, Rat17.Wf a ∧ Rat17.value a = x ∧ w = showRat a) k (q_op (argv ts k))
      (denQ qLit intLit (fun x y => x < y) t) := by
  have F : Follows ['\n'] k (qOp ts >>= VText.each (showNum showRat)) (q_op (argv ts k)) := by
    unfold qOp q_op
    simp only [bind_assoc]
    rw [← pair_eq (IntRat.ofInt 0) (IntRat.ofInt 1) fun z o => parse (scalar Expr.intratOps z o (fun s => Scan.readRat s.toList) fun s => Scan.readInt s.toList) ts >>=
      VText.each (showNum showRat)]
    exact Follows.lift_bind fun z _ => calc_follows (scalar_fits _ _ _ _ _) hd hk (line_eq _)
  rcases C90_q_partial ts with ⟨h, -⟩ | ⟨t', hd', h⟩ | ⟨h, -⟩
  · exact absurd h (derives_ne_nil hd)
  · obtain rfl := (C90_unambiguous (t := t) (u := t') (ts := ts)).1 hd hd'
    revert h
    cases denQ qLit intLit (fun x y => x < y) t with
    | none =>
      rintro (h | h)
      · exact .inl (F.throw (by rw [h]; rfl))
      · exact .inr ⟨trivial, F.ub (by rw [h]; rfl)⟩
    | some x =>
      cases x with
      | inl x =>
        rintro (⟨a, h, h1, h2⟩ | h)
        · exact .inl ⟨showRat a, F.ok (by rw [h]; rfl), a, h1, h2, rfl⟩
        · exact .inr ⟨trivial, F.ub (by rw [h]; rfl)⟩
      | inr b =>
        rintro (h | h)
        · exact .inl (F.ok (w := [if b then '1' else '0']) (by rw [h]; cases b <;> decide +kernel))
        · exact .inr ⟨trivial, F.ub (by rw [h]; rfl)⟩
  · exact absurd ⟨t, hd⟩ h

theorem bit_cmp {a b : BitT} {x y : ZMod 2} (ha : BitT.Rep a x) (hb : BitT.Rep b y) :
    (a.residue < b.residue ↔ x.val < y.val) ∧ (a.residue ≤ b.residue ↔ ¬ y.val < x.val) ∧ (a.residue = b.residue ↔ x = y) := by
  unfold BitT.Rep at ha hb
  rw [ha, hb]
  clear ha hb
  revert x y
  decide

/-- The operators of `bit_t` are those of the field of two elements; the order is that of 0 and 1. -/
theorem bit_fref : Expr.FRef False bitOps BitT.Rep (fun x y => x.val < y.val) where
  neg := fun ha => LA.bit_neg.neg ha
  add := fun ha hb => BitT.eltRef.add ha hb
  sub := fun ha hb => BitT.eltRef.sub ha hb
  mul := fun ha hb => BitT.eltRef.mul ha hb
  div := fun {a b x y} ha hb hy => by
    have := BitT.eltRef.div ha hb (mul_inv_cancel₀ hy)
    rwa [← div_eq_mul_inv] at this
  div0 := fun {a b x} ha hb => by
    have : b.residue = 0 := by rw [hb]; rfl
    exact .inl (if_pos this)
  mod := fun {a b x y} ha hb hy => by
    have : b.residue ≠ 0 := by rw [hb, if_neg hy]; decide
    show (BitT.mod a b).Sat _ _
    unfold BitT.mod
    rw [if_neg this]
    have := BitT.rep_ofInt 0
    rwa [Int.cast_zero] at this
  mod0 := fun {a b x} ha hb => by
    have : b.residue = 0 := by rw [hb]; rfl
    exact .inl (if_pos this)
  eq := fun ha hb => by
    show (_ == _) = true ↔ _
    rw [beq_iff_eq]; exact (bit_cmp ha hb).2.2
  ne := fun ha hb => by
    show (_ != _) = true ↔ _
    rw [bne_iff_ne, ne_eq, (bit_cmp ha hb).2.2]
  lt := fun ha hb => decide_eq_true_iff.trans (bit_cmp ha hb).1
  le := fun ha hb => decide_eq_true_iff.trans (bit_cmp ha hb).2.1
  gt := fun ha hb => decide_eq_true_iff.trans (bit_cmp hb ha).1
  ge := fun ha hb => decide_eq_true_iff.trans (bit_cmp hb ha).2.1

/-- C109, f2_op, whatever is in the uninitialised variable of `operator>>`. -/
theorem C109_f2_op (r0 : ℕ) {lit : String → Option (ZMod 2)} (hd : Derives scalarG .Q t ts) (hk : Tail k) (hv : Literals BitWord lit t)
    (hi : Exponents t) :
    CAnswers False BitWord k (f2_op r0 (argv ts k)) (denSQ (fieldSem (ZMod 2)) lit intLit (fun x y => x.val < y.val) t) := by
  have r0' := BitT.rep_ofInt 0
  have r1' := BitT.rep_ofInt 1
  simp only [Int.cast_zero, Int.cast_one] at r0' r1'
  exact of_answers (scalar_follows (O := bitOps) (E := bitIO r0) (BitT.ofInt 0, BitT.ofInt 1) hd hk)
    (answers bit_fref.toRRef (C98_bit r0) r0' r1' hd hv (.inr hi) (.inr rfl))

/-! ### F_p -/

section fp
variable {p : ℕ} [hp : Fact p.Prime] {M : (ZMod p)[X]} {x y : List Char}

theorem pair_fp (hb : p ≤ 46341) : pair (IntMod.mk' 0 p) (IntMod.mk' 1 p) = ok (⟨0, p⟩, ⟨1, p⟩) := by
  obtain ⟨e0, e1, -⟩ := fp_zero_one hp.out.two_le hb
  unfold pair
  rw [e0, ok_bind, e1, ok_bind]

/-- The first two arguments of fp_pm_mat_op and fp_pm_vecop. -/
theorem calc_par (hb : p ≤ 46341) (hx : IsInt x p) (hy : FpDenotes p y M) :
    ∃ mm, (∀ run r, fp_pm_calc run (x :: y :: r) = run mm r) ∧ PRep (IntMod.Rep p) mm M := by
  obtain ⟨mm, h1, h2⟩ := (Cmd102.tool hb).read hy
  have e : Prints (intArgN x) [] p := by
    obtain ⟨hn, tail, ht⟩ := hx
    unfold intArgN
    refine Prints.then (a := some ((p : Int), tail)) (prints_lift ?_) (prints_pure _)
    rw [scanD_text ht, if_pos hn]
  have e' : Prints (readArgN (fpTool p).read y) [] mm := Prints.then (prints_lift h1) (prints_pure _)
  refine ⟨mm, fun run r => ?_, h2⟩
  have : fp_pm_calc run (x :: y :: r) = _ := skip e _
  rw [this]
  exact skip e' _

/-- C109, fp_op: for literals that are not negative (`C90_violated_fp_negative`). -/
theorem C109_fp_op_partial (hb : p ≤ 46341) (hx : IsInt x p) (hd : Derives scalarG .Q t ts) (hk : Tail k)
    (hv : ∀ s n, (false, s) ∈ t.lits false → intLit s = some n → 0 ≤ n) (hi : ∀ s, (true, s) ∈ t.lits false → intLit s ≠ some INT_MIN) :
    CAnswers False (fun w (z : ZMod p) => w = showInt z.val) k (fp_op (x :: argv ts k)) (denQ (fpLit p) intLit (fun x y => x.val < y.val) t) := by
  have F : Follows ['\n'] k (fpOp p ts >>= VText.each (showNum fun a => showInt a.residue)) (fp_op (x :: argv ts k)) := by
    have e : fp_op (x :: argv ts k) = _ := skip (intArg_prints hx) _
    rw [e]
    show Follows _ _ _ (lift (pair _ _) >>= _)
    rw [pair_fp hb, fpOp_eq hp.out.two_le hb, lift_ok, pure_bind]
    exact calc_follows (scalar_fits _ _ _ _ _) hd hk (line_eq _)
  rw [C90_fp_partial hb hd hv hi] at F
  revert F
  cases denQ (fpLit p) intLit (fun x y => x.val < y.val) t with
  | none => exact fun F => .inl (F.throw rfl)
  | some z =>
    cases z with
    | inl z => exact fun F => .inl ⟨showInt z.val, F.ok rfl, rfl⟩
    | inr b => exact fun F => .inl (F.ok (w := [if b then '1' else '0']) (by
      show ok [showInt (if b then 1 else 0)] = _
      cases b <;> decide +kernel))

/-- C109, fp_p_op. -/
theorem C109_fp_p_op_partial (hb : p ≤ 46341) (hx : IsInt x p) {lit : String → Option (ZMod p)[X]} (hd : Derives scalarG .Q t ts) (hk : Tail k)
    (hv : Literals (FpText p) lit t) :
    (NoNeg t → Exponents t → CAnswers False (FpText p) k (fp_p_op (x :: argv ts k))
      (denSQ (polySem (ZMod p)) lit intLit (polyLt fun x y => x.val < y.val) t)) ∧
    CAnswers True (FpText p) k (fp_p_op (x :: argv ts k)) (denSQ (polySem (ZMod p)) lit intLit (polyLt fun x y => x.val < y.val) t) := by
  have F : Follows ['\n'] k (fpPOp p ts) (fp_p_op (x :: argv ts k)) := by
    have e : fp_p_op (x :: argv ts k) = _ := skip (intArg_prints hx) _
    have e' : fpPOp p ts = (pair (IntMod.mk' 0 p >>= CPoly.const IntMod.cops) (IntMod.mk' 1 p >>= CPoly.const IntMod.cops) >>= fun z =>
        calcOp (cpolyOps IntMod.cops) VText.fpIO z.1 z.2 ts) := by
      rw [pair_eq _ _ fun z o => calcOp (cpolyOps IntMod.cops) VText.fpIO z o ts]
      unfold fpPOp
      simp only [bind_assoc]
    rw [e, e']
    exact Follows.lift_bind fun z _ => scalar_follows z hd hk
  have h := C96_fp_partial hb hd hv
  exact ⟨fun h1 h2 => of_answers F (h.1 h1 h2), of_answers F h.2⟩

/-- C109, fp_pm_op: for any modulus other than zero. -/
theorem C109_fp_pm_op_partial (hb : p ≤ 46341) (hM : M ≠ 0) (hx : IsInt x p) (hy : FpDenotes p y M) {lit : String → Option (AdjoinRoot M)}
    (hd : Derives scalarG .Q t ts) (hk : Tail k) (hv : Literals (FpRep M) lit t) :
    (NoNeg t → Exponents t → CAnswers False (FpRep M) k (fp_pm_op (x :: y :: argv ts k))
      (denSQ (unitSem (AdjoinRoot M)) lit intLit (CMod.ordM (fun x y => x.val < y.val) M) t)) ∧
    CAnswers True (FpRep M) k (fp_pm_op (x :: y :: argv ts k))
      (denSQ (unitSem (AdjoinRoot M)) lit intLit (CMod.ordM (fun x y => x.val < y.val) M) t) := by
  obtain ⟨mm, h1, h2⟩ := Cmd106.fp_par hb hx hy
  have F : Follows ['\n'] k (fpPmOp mm ts) (fp_pm_op (x :: y :: argv ts k)) := by
    have e : fp_pm_op (x :: y :: argv ts k) = _ := skip h1 _
    have e' : fpPmOp mm ts = _ := (pair_eq _ _ fun z o => calcOp (cmodOps IntMod.cops) VText.fpModIO z o ts).symm
    rw [e, e']
    exact Follows.lift_bind fun z _ => scalar_follows z hd hk
  have h := C96_fpmod_partial hb hM h2 hd hv
  exact ⟨fun h1 h2 => of_answers F (h.1 h1 h2), of_answers F h.2⟩

/-- C109, fp_mat_op and fp_vec_op. -/
theorem C109_fp_mat_op (hb : p ≤ 46341) (hx : IsInt x p) {files : String → Option (List Char)} (hd : Derives matG .Q t ts) (hk : Tail k)
    (hl : MLiterals (ModWord p) files t) (hi : Exponents t) :
    CMAnswers False (ModWord p) k (fp_mat_op files (x :: argv ts k)) (MDen (MLit (ModWord p) files) false t) := by
  refine of_manswers ?_ (C98_fp_matrix hb hd hl hi)
  have e : fp_mat_op files (x :: argv ts k) = _ := skip (intArg_prints hx) _
  have e' : fpMatOp p files ts = _ := (pair_eq _ _ fun z o => matOp IntMod.cops.tops VText.modIO files z o ts).symm
  rw [e, e']
  exact Follows.lift_bind fun z _ => mat_follows z hd hk

theorem C109_fp_vec_op (hb : p ≤ 46341) (hx : IsInt x p) {n : ℕ} (hn : 0 < n) {lit : String → Option (Fin n → ZMod p)} (hd : Derives vecG .Q t ts)
    (hk : Tail k) (hl : VLiterals (ModWord p) lit t) (hi : Exponents t) :
    CVAnswers False (ModWord p) k (fp_vec_op (x :: argv ts k)) (vden lit false t) := by
  refine of_vanswers ?_ (C98_fp_vector hb hn hd hl hi)
  have e : fp_vec_op (x :: argv ts k) = _ := skip (intArg_prints hx) _
  rw [e]
  show Follows _ _ _ (lift (pair _ _) >>= _)
  rw [pair_fp hb, lift_ok, pure_bind]
  unfold fpVecOp
  rw [(fp_zero_one hp.out.two_le hb).1, ok_bind]
  exact vec_follows _ hd hk

end fp

/-! ### F_2 -/

section f2
variable {m : (ZMod 2)[X]} {x : List Char}

/-- C109, f2_p_op. -/
theorem C109_f2_p_op_partial {lit : String → Option (ZMod 2)[X]} (hd : Derives scalarG .Q t ts) (hk : Tail k) (hv : Literals HexWord lit t) :
    CAnswers True HexWord k (f2_p_op (argv ts k)) (denSQ (polySem (ZMod 2)) lit intLit (fun x y => F2P.nval x < F2P.nval y) t) :=
  of_answers (scalar_follows (F2P.zero, F2P.one) hd hk) (C96_f2_partial hd hv)

/-- C109, f2_pm_op: for any modulus of positive degree. -/
theorem C109_f2_pm_op (hm : 0 < m.natDegree) (hx : IsHex x m) {lit : String → Option (AdjoinRoot m)} (hd : Derives scalarG .Q t ts) (hk : Tail k)
    (hv : Literals (HexRep m) lit t) (hi : Exponents t) :
    CAnswers False (HexRep m) k (f2_pm_op (x :: argv ts k)) (denSQ (unitSem (AdjoinRoot m)) lit intLit (F2Mod.ordQ m) t) := by
  obtain ⟨mm, h1, h2, h3⟩ := Cmd103.par hx
  refine of_answers ?_ (C96_f2mod hm h2 h3 hd hv hi)
  have e : f2_pm_op (x :: argv ts k) = _ := skip h1 _
  have e' : f2PmOp mm ts = _ := (pair_eq _ _ fun z o => calcOp f2modOps VText.f2ModIO z o ts).symm
  rw [e, e']
  exact Follows.lift_bind fun z _ => scalar_follows z hd hk

/-- C109, f2_mat_op and f2_vec_op; the exponents of vectors are positive (`C98_violated_bit_power`). -/
theorem C109_f2_mat_op (r0 : ℕ) {files : String → Option (List Char)} (hd : Derives matG .Q t ts) (hk : Tail k) (hl : MLiterals BitWord files t)
    (hi : Exponents t) : CMAnswers False BitWord k (f2_mat_op r0 files (argv ts k)) (MDen (MLit BitWord files) false t) :=
  of_manswers (mat_follows (BitT.ofInt 0, BitT.ofInt 1) hd hk) (C98_f2_matrix r0 hd hl hi)

theorem C109_f2_vec_op_partial (r0 : ℕ) {n : ℕ} (hn : 0 < n) {lit : String → Option (Fin n → ZMod 2)} (hd : Derives vecG .Q t ts) (hk : Tail k)
    (hl : VLiterals BitWord lit t) (hi : ∀ s j, (true, s) ∈ t.lits false → intLit s = some j → 0 < j) :
    CVAnswers False BitWord k (f2_vec_op r0 (argv ts k)) (vden lit false t) :=
  of_vanswers (vec_follows _ hd hk) (C98_f2_vector_partial r0 hn hd hl hi)

end f2

/-! ### F_2^n -/

section f2n
variable {m : (ZMod 2)[X]} [hm : Fact (Irreducible m)] {N : (AdjoinRoot m)[X]} {x y : List Char}

/-- C109, f2n_p_op. -/
theorem C109_f2n_p_op_partial (hx : IsHex x m) {lit : String → Option (AdjoinRoot m)[X]} (hd : Derives scalarG .Q t ts) (hk : Tail k)
    (hv : Literals (Colons (HexRep m)) lit t) :
    (NoNeg t → Exponents t → CAnswers False (Colons (HexRep m)) k (f2n_p_op (x :: argv ts k))
      (denSQ (polySem (AdjoinRoot m)) lit intLit (polyLt (F2Mod.ordQ m)) t)) ∧
    CAnswers True (Colons (HexRep m)) k (f2n_p_op (x :: argv ts k)) (denSQ (polySem (AdjoinRoot m)) lit intLit (polyLt (F2Mod.ordQ m)) t) := by
  obtain ⟨mm, h1, h2, h3⟩ := Cmd103.par hx
  have F : Follows ['\n'] k (f2nPOp mm ts) (f2n_p_op (x :: argv ts k)) := by
    have e : f2n_p_op (x :: argv ts k) = _ := skip h1 _
    have e' : f2nPOp mm ts = _ := (pair_eq _ _ fun z o => calcOp (cpolyOps F2Mod.cops) VText.f2nIO z o ts).symm
    rw [e, e']
    exact Follows.lift_bind fun z _ => scalar_follows z hd hk
  have h := C96_f2n_partial h2 h3 hd hv
  exact ⟨fun h1 h2 => of_answers F (h.1 h1 h2), of_answers F h.2⟩

/-- C109, f2n_pm_op: for any modulus other than zero. -/
theorem C109_f2n_pm_op_partial (hN : N ≠ 0) (hx : IsHex x m) (hy : Cmd103.F2nText m y N) {lit : String → Option (AdjoinRoot N)}
    (hd : Derives scalarG .Q t ts) (hk : Tail k) (hv : Literals (fun t x => ∃ f, Colons (HexRep m) t f ∧ x = AdjoinRoot.mk N f) lit t) :
    (NoNeg t → Exponents t → CAnswers False (fun t x => ∃ f, Colons (HexRep m) t f ∧ x = AdjoinRoot.mk N f) k (f2n_pm_op (x :: y :: argv ts k))
      (denSQ (unitSem (AdjoinRoot N)) lit intLit (CMod.ordM (F2Mod.ordQ m) N) t)) ∧
    CAnswers True (fun t x => ∃ f, Colons (HexRep m) t f ∧ x = AdjoinRoot.mk N f) k (f2n_pm_op (x :: y :: argv ts k))
      (denSQ (unitSem (AdjoinRoot N)) lit intLit (CMod.ordM (F2Mod.ordQ m) N) t) := by
  obtain ⟨mm, h1, h2⟩ := Cmd106.n_par hx hy
  have F : Follows ['\n'] k (f2nPmOp mm ts) (f2n_pm_op (x :: y :: argv ts k)) := by
    have e : f2n_pm_op (x :: y :: argv ts k) = _ := skip h1 _
    have e' : f2nPmOp mm ts = _ := (pair_eq _ _ fun z o => calcOp (cmodOps F2Mod.cops) VText.f2nModIO z o ts).symm
    rw [e, e']
    exact Follows.lift_bind fun z _ => scalar_follows z hd hk
  have h := C96_f2nmod_partial hN h2 hd hv
  exact ⟨fun h1 h2 => of_answers F (h.1 h1 h2), of_answers F h.2⟩

/-- C109, f2_pm_mat_op and f2_pm_vec_op, for an irreducible modulus. -/
theorem C109_f2_pm_mat_op (hx : IsHex x m) {files : String → Option (List Char)} (hd : Derives matG .Q t ts) (hk : Tail k)
    (hl : MLiterals (HexRep m) files t) (hi : Exponents t) :
    CMAnswers False (HexRep m) k (f2_pm_mat_op files (x :: argv ts k)) (MDen (MLit (HexRep m) files) false t) := by
  obtain ⟨mm, h1, h2, h3⟩ := Cmd103.par hx
  refine of_manswers ?_ (C98_f2n_matrix h2 h3 hd hl hi)
  have e : f2_pm_mat_op files (x :: argv ts k) = _ := skip h1 _
  have e' : f2PmMatOp mm files ts = _ := (pair_eq _ _ fun z o => matOp F2Mod.cops.tops VText.f2ModIO files z o ts).symm
  rw [e, e']
  exact Follows.lift_bind fun z _ => mat_follows z hd hk

theorem C109_f2_pm_vec_op (hx : IsHex x m) {n : ℕ} (hn : 0 < n) {lit : String → Option (Fin n → AdjoinRoot m)} (hd : Derives vecG .Q t ts)
    (hk : Tail k) (hl : VLiterals (HexRep m) lit t) (hi : Exponents t) :
    CVAnswers False (HexRep m) k (f2_pm_vec_op (x :: argv ts k)) (vden lit false t) := by
  obtain ⟨mm, h1, h2, h3⟩ := Cmd103.par hx
  refine of_vanswers ?_ (C98_f2n_vector h2 h3 hn hd hl hi)
  obtain ⟨z, o, hz, ho, -⟩ := f2pm_zero_one h2 h3
  have e : f2_pm_vec_op (x :: argv ts k) = _ := skip h1 _
  rw [e]
  show Follows _ _ _ (lift (pair _ _) >>= _)
  unfold f2PmVecOp pair
  rw [hz, ok_bind, ho, ok_bind, ok_bind, lift_ok, pure_bind]
  exact vec_follows _ hd hk

end f2n

/-! ### F_p^n -/

section fpn
variable {p : ℕ} [hp : Fact p.Prime] {M : (ZMod p)[X]} [hM : Fact (Irreducible M)] {N : (AdjoinRoot M)[X]} {x y z : List Char}

/-- C109, fpn_p_op. -/
theorem C109_fpn_p_op_partial (hb : p ≤ 46341) (hx : IsInt x p) (hy : FpDenotes p y M) {lit : String → Option (AdjoinRoot M)[X]}
    (hd : Derives scalarG .Q t ts) (hk : Tail k) (hv : Literals (Colons (FpRep M)) lit t) :
    CAnswers True (Colons (FpRep M)) k (fpn_p_op (x :: y :: argv ts k))
      (denSQ (polySem (AdjoinRoot M)) lit intLit (polyLt (CMod.ordM (fun x y => x.val < y.val) M)) t) := by
  obtain ⟨mm, h1, h2⟩ := Cmd106.fp_par hb hx hy
  refine of_answers ?_ (C96_fpn_partial hb h2 hd hv)
  have e : fpn_p_op (x :: y :: argv ts k) = _ := skip h1 _
  have e' : fpnPOp mm ts = _ := (pair_eq _ _ fun z o => calcOp (cpolyOps FpMod.cops) VText.fpnIO z o ts).symm
  rw [e, e']
  exact Follows.lift_bind fun z _ => scalar_follows z hd hk

theorem fpn_pm_par (hb : p ≤ 46341) (hx : IsInt x p) (hy : FpDenotes p y M) (hz : Cmd108.FpnText M z N) :
    ∃ mm, Prints (fpnPmArg x y z) [] mm ∧ PRep (CMod.Rep (IntMod.Rep p) M) mm N := by
  obtain ⟨mm, h1, h2⟩ := Cmd106.fp_par hb hx hy
  obtain ⟨nn, h3, h4⟩ := (Cmd108.tool hb h2).read hz
  exact ⟨nn, h1.then (readArg_prints h3), h4⟩

/-- C109, fpn_pm_op: for any modulus other than zero. -/
theorem C109_fpn_pm_op_partial (hb : p ≤ 46341) (hN : N ≠ 0) (hx : IsInt x p) (hy : FpDenotes p y M) (hz : Cmd108.FpnText M z N)
    {lit : String → Option (AdjoinRoot N)} (hd : Derives scalarG .Q t ts) (hk : Tail k)
    (hv : Literals (fun t x => ∃ f, Colons (FpRep M) t f ∧ x = AdjoinRoot.mk N f) lit t) :
    CAnswers True (fun t x => ∃ f, Colons (FpRep M) t f ∧ x = AdjoinRoot.mk N f) k (fpn_pm_op (x :: y :: z :: argv ts k))
      (denSQ (unitSem (AdjoinRoot N)) lit intLit (CMod.ordM (CMod.ordM (fun x y => x.val < y.val) M) N) t) := by
  obtain ⟨mm, h1, h2⟩ := fpn_pm_par hb hx hy hz
  refine of_answers ?_ (C96_fpnmod_partial hb hN h2 hd hv)
  have e : fpn_pm_op (x :: y :: z :: argv ts k) = _ := skip h1 _
  have e' : fpnPmOp mm ts = _ := (pair_eq _ _ fun z o => calcOp (cmodOps FpMod.cops) VText.fpnModIO z o ts).symm
  rw [e, e']
  exact Follows.lift_bind fun z _ => scalar_follows z hd hk

/-- C109, fp_pm_mat_op and fp_pm_vecop, for an irreducible modulus. -/
theorem C109_fp_pm_mat_op_partial (hb : p ≤ 46341) (hx : IsInt x p) (hy : FpDenotes p y M) {files : String → Option (List Char)}
    (hd : Derives matG .Q t ts) (hk : Tail k) (hl : MLiterals (FpRep M) files t) :
    (¬ Minus t → Exponents t → CMAnswers False (FpRep M) k (fp_pm_mat_op files (x :: y :: argv ts k)) (MDen (MLit (FpRep M) files) false t)) ∧
    CMAnswers True (FpRep M) k (fp_pm_mat_op files (x :: y :: argv ts k)) (MDen (MLit (FpRep M) files) false t) := by
  obtain ⟨mm, h1, h2⟩ := calc_par hb hx hy
  have F : Follows [] k (fpPmMatOp mm files ts) (fp_pm_mat_op files (x :: y :: argv ts k)) := by
    have e : fp_pm_mat_op files (x :: y :: argv ts k) = _ := h1 _ _
    have e' : fpPmMatOp mm files ts = _ := (pair_eq _ _ fun z o => matOp FpMod.cops.tops VText.fpModIO files z o ts).symm
    rw [e, e']
    exact Follows.lift_bind fun z _ => mat_follows z hd hk
  have h := C98_fpn_matrix_partial hb h2 hd hl
  exact ⟨fun h1 h2 => of_manswers F (h.1 h1 h2), of_manswers F h.2⟩

theorem vecop_follows (hb : p ≤ 46341) {mm : CPoly IntMod} (h1 : ∀ run r, fp_pm_calc run (x :: y :: r) = run mm r) (h2 : PRep (IntMod.Rep p) mm M)
    (hd : Derives vecG .Q t ts) (hk : Tail k) : Follows [] k (fpPmVecOp mm ts) (fp_pm_vecop (x :: y :: argv ts k)) := by
  obtain ⟨z, o, hz, ho, -⟩ := fppm_psub hb h2
  have e' : fpPmVecOp mm ts = vecOp FpMod.cops.tops (CMod.exp IntMod.cops) VText.fpModIO z ts := by
    unfold fpPmVecOp
    rw [hz, ok_bind]
  have e : fp_pm_vecop (x :: y :: argv ts k) = vecCmd FpMod.cops.tops (CMod.exp IntMod.cops) VText.fpModIO z (argv ts k) := by
    unfold fp_pm_vecop
    rw [h1, show pair (fpPmPsub 0 mm) (fpPmPsub 1 mm) = ok (z, o) by unfold pair; rw [hz, ok_bind, ho, ok_bind], lift_ok, pure_bind]
  rw [e, e']
  exact vec_follows _ hd hk

theorem C109_fp_pm_vecop_partial (hb : p ≤ 46341) (hx : IsInt x p) (hy : FpDenotes p y M) {n : ℕ} (hn : 0 < n)
    {lit : String → Option (Fin n → AdjoinRoot M)} (hd : Derives vecG .Q t ts) (hk : Tail k) (hl : VLiterals (FpRep M) lit t) (hi : Exponents t) :
    (¬ Minus t → CVAnswers False (FpRep M) k (fp_pm_vecop (x :: y :: argv ts k)) (vden lit false t)) ∧
    CVAnswers True (FpRep M) k (fp_pm_vecop (x :: y :: argv ts k)) (vden lit false t) := by
  obtain ⟨mm, h1, h2⟩ := calc_par hb hx hy
  have F := vecop_follows hb h1 h2 hd hk
  have h := C98_fpn_vector_partial hb h2 hn hd hl hi
  exact ⟨fun h1 => of_vanswers F (h.1 h1), of_vanswers F h.2⟩

end fpn

/-! ### Rational matrices and vectors -/

theorem C109_q_mat_op_partial {files : String → Option (List Char)} (hd : Derives matG .Q t ts) (hk : Tail k) (hl : MLiterals RatWord files t) :
    CMAnswers True RatWord k (q_mat_op files (argv ts k)) (MDen (MLit RatWord files) false t) := by
  have F : Follows [] k (qMatOp files ts) (q_mat_op files (argv ts k)) := by
    unfold qMatOp q_mat_op argv
    generalize (⟨0, 1⟩ : IntRat) = a, (⟨1, 1⟩ : IntRat) = b
    exact mat_follows (a, b) hd hk
  exact of_manswers F (C98_q_matrix_partial hd hl)

theorem C109_q_vec_op_partial {n : ℕ} (hn : 0 < n) {lit : String → Option (Fin n → ℚ)} (hd : Derives vecG .Q t ts) (hk : Tail k)
    (hl : VLiterals RatWord lit t) : CVAnswers True RatWord k (q_vec_op (argv ts k)) (vden lit false t) := by
  have F : Follows [] k (qVecOp ts) (q_vec_op (argv ts k)) := by
    unfold qVecOp q_vec_op argv
    exact vec_follows _ hd hk
  exact of_vanswers F (C98_q_vector_partial hn hd hl)

/-! ### Arguments before the expression -/

/-- C109: an argument before the expression that is missing or cannot be read: status 1 and nothing printed. -/
theorem C109_usage (files : String → Option (List Char)) (x y : List Char) (r : List (List Char)) :
    (∀ c ∈ [fp_op, fp_p_op, fp_mat_op files, fp_vec_op], Exits (c []) [] ∧ (NotInt x → Exits (c (x :: r)) [])) ∧
    (∀ c ∈ [f2_pm_op, f2n_p_op, f2_pm_mat_op files, f2_pm_vec_op], Exits (c []) [] ∧ ((∀ f, ¬ IsHex x f) → Exits (c (x :: r)) [])) ∧
    (∀ c ∈ [fp_pm_op, fpn_p_op], Exits (c []) [] ∧ Exits (c [x]) [] ∧ (NotInt x → Exits (c (x :: y :: r)) []) ∧
      ∀ (p : ℕ) [Fact p.Prime], p ≤ 46341 → IsInt x p → Cmd102.FpBad p y → Exits (c (x :: y :: r)) []) ∧
    (Exits (f2n_pm_op []) [] ∧ Exits (f2n_pm_op [x]) [] ∧ ((∀ f, ¬ IsHex x f) → Exits (f2n_pm_op (x :: y :: r)) []) ∧
      ∀ m, IsHex x m → Irreducible m → Cmd103.F2nBad m y → Exits (f2n_pm_op (x :: y :: r)) []) ∧
    (Exits (fpn_pm_op []) [] ∧ Exits (fpn_pm_op [x]) [] ∧ Exits (fpn_pm_op [x, y]) []) := by
  refine ⟨fun c hc => ?_, fun c hc => ?_, fun c hc => ?_, ⟨exits_exit1, exits_exit1, fun h => ?_, fun m h1 h2 h3 => ?_⟩,
    exits_exit1, exits_exit1, exits_exit1⟩
  · simp only [List.mem_cons, List.not_mem_nil, or_false] at hc
    rcases hc with rfl | rfl | rfl | rfl <;> exact ⟨exits_exit1, fun h => (intArg_exits h).bind⟩
  · simp only [List.mem_cons, List.not_mem_nil, or_false] at hc
    rcases hc with rfl | rfl | rfl | rfl <;> exact ⟨exits_exit1, fun h => (Cmd101.readArg_no h : Exits (f2Arg x) []).bind⟩
  · simp only [List.mem_cons, List.not_mem_nil, or_false] at hc
    rcases hc with rfl | rfl <;>
    exact ⟨exits_exit1, exits_exit1, fun h => ((intArg_exits h).bind : Exits (fpPmArg x y) []).bind,
      fun p _ h46 h1 h2 => (Cmd106.fp_par_bad h46 h1 h2).bind⟩
  · exact ((Cmd101.readArg_no h : Exits (f2Arg x) []).bind : Exits (f2nPmArg x y) []).bind
  · have : Fact (Irreducible m) := ⟨h2⟩
    obtain ⟨im, e1, e2, e3⟩ := Cmd103.par h1
    exact (e1.then_exits (Cmd103.readArg_bad e2 e3 h3) : Exits (f2nPmArg x y) []).bind

/-- C109: no expression: nothing is printed, with status 0. -/
theorem C109_empty {A : Type} (D : Dialect A) (sh : A → Res (List Char)) : Prints (calcCmd D sh []) [] () := rfl

/-- C109, violated: fp_pm_mat_op and fp_pm_vecop have no usage function, and call a null pointer instead. -/
theorem C109_violated_null_usage {p : ℕ} [Fact p.Prime] (h46 : p ≤ 46341) (files : String → Option (List Char)) (x y : List Char)
    (r : List (List Char)) :
    ∀ c ∈ [fp_pm_mat_op files, fp_pm_vecop], IsUb (c []) ∧ IsUb (c [x]) ∧ (NotInt x → IsUb (c (x :: y :: r))) ∧
      (IsInt x p → Cmd102.FpBad p y → IsUb (c (x :: y :: r))) := by
  intro c hc
  simp only [List.mem_cons, List.not_mem_nil, or_false] at hc
  rcases hc with rfl | rfl <;> exact Cmd106.C106_violated_null_usage h46 _ r

/-! ### Examples -/

section Examples

private def a (l : List String) : List (List Char) := l.map String.toList
private def noFiles : String → Option (List Char) := fun _ => none

-- the value is printed, then the rest of the arguments is found to be an error
example : (z_op (a ["1", "+", "2", ")", "*", "3"])).run = ok ("3\n".toList, .thrown) ∧
    (z_op (a ["1", "2"])).run = ok ("1\n".toList, .thrown) ∧ (z_op []).run = ok ([], .val ()) := by decide +kernel
example : (z_op (a ["2147483647", "+", "1"])).run = ub ∧ (z_op (a ["-7", "/", "2"])).run = ok ("-3\n".toList, .val ()) := by decide +kernel
example : (q_op (a ["1/2", "+", "1/3", ")"])).run = ok ("5/6\n".toList, .thrown) := by decide +kernel
example : (fp_op (a ["7", "3", "/", "5"])).run = ok ("2\n".toList, .val ()) ∧ (fp_op (a ["7", "3", "/", "0"])).run = ok ([], .thrown) ∧
    (fp_op (a ["x", "3", "/", "5"])).run = ok ([], .exit1) := by decide +kernel
example : (f2_op 0 (a ["1", "+", "1", "==", "0"])).run = ok ("1\n".toList, .val ()) := by decide +kernel
example : (f2_p_op (a ["7", "*", "3"])).run = ok ("9\n".toList, .val ()) := by decide +kernel
example : (f2_pm_op (a ["13", "7", "^", "-1"])).run = ok ("6\n".toList, .val ()) := by decide +kernel
example : (fp_p_op (a ["5", "1,4", "*", "1,1"])).run = ok ("104\n".toList, .val ()) := by decide +kernel
example : (fp_pm_op (a ["5", "1,0,2", "1,4", "*", "1,1"])).run = ok ("02\n".toList, .val ()) := by decide +kernel
example : (f2n_p_op (a ["7", "1:2", "*", "1:3"])).run = ok ("1:1:1\n".toList, .val ()) := by decide +kernel
example : (f2n_pm_op (a ["7", "1:0:2", "1:2", "*", "1:3"])).run = ok ("1:3\n".toList, .val ()) := by decide +kernel
example : (fpn_p_op (a ["3", "1,0,1", "1:10", "*", "1:20"])).run = ok ("1:0:1\n".toList, .val ()) := by decide +kernel
example : (fpn_pm_op (a ["3", "1,0,1", "1:0:11", "1:10", "*", "1:20"])).run = ok ("0:20\n".toList, .val ()) := by decide +kernel
example : (fp_mat_op noFiles (a ["7", "inv", "[[1 2][3 4]]", ")"])).run = ok ("5 1\n5 3\n".toList, .thrown) := by decide +kernel
example : (fp_vec_op (a ["7", "[1 2 3]", "^", "-1", "*", "[1 1 2]"])).run = ok ("1 4 3\n".toList, .val ()) := by decide +kernel
example : (q_mat_op noFiles (a ["inv", "[[1 1/2][1/3 1/4]]"])).run = ok ("3 -6\n-4 12\n".toList, .val ()) := by decide +kernel
example : (q_vec_op (a ["[1 2 3/4]", "^", "-1", "*", "[1 1 2]"])).run = ok ("1 1/2 8/3\n".toList, .val ()) := by decide +kernel
example : (f2_pm_mat_op noFiles (a ["13", "inv", "[[1 2][3 a]]"])).run = ok ("8 7\nd a\n".toList, .val ()) := by decide +kernel
example : (f2_pm_vec_op (a ["13", "[1 2]", "^", "-1"])).run = ok ("1 9\n".toList, .val ()) := by decide +kernel
example : (f2_mat_op 3 noFiles (a ["rechr", "[[1 2 3][1 1 1]]"])).run = ok ("0 1 0\n1 0 1\n".toList, .val ()) := by decide +kernel
example : (fp_pm_vecop (a ["3", "1,0,1", "[10 11]", "^", "-1"])).run = ok ("20 12\n".toList, .val ()) := by decide +kernel
example : (fp_pm_mat_op noFiles (a ["3", "1,0,1", "inv", "[[10 11][1 1]]"])).run = ok ("02 11\n01 20\n".toList, .val ()) ∧
    (fp_pm_mat_op noFiles (a ["3"])).run = ub := by decide +kernel

local instance : Fact (Nat.Prime 7) := ⟨by norm_num⟩

private theorem sum : Derives scalarG .Q (.bin .div (.lit "3") (.lit "5")) ["3", "/", "5"] :=
  .ofC (.ofE (.ofT (.mul (a := ["3"]) (b := ["5"]) (by decide) (.ofF (.ofU (.ofP (.lit (by unfold Gram.IsLit; decide +kernel)))))
    (.ofU (.ofP (.lit (by unfold Gram.IsLit; decide +kernel)))))))

-- the hypotheses hold for `fp_op 7 3 / 5 )`
example : CAnswers False (fun w (z : ZMod 7) => w = showInt z.val) [")"] (fp_op ("7".toList :: argv ["3", "/", "5"] [")"]))
    (denQ (fpLit 7) intLit (fun x y => x.val < y.val) (.bin .div (.lit "3") (.lit "5"))) := by
  refine C109_fp_op_partial (p := 7) (by norm_num) ((by decide +kernel : showInt 7 = "7".toList) ▸ isInt_show (by decide)) sum (.inr ⟨")", [], rfl, by simp⟩) ?_ ?_
  · intro s n hs hn
    simp only [Tree.lits, List.mem_append, List.mem_singleton, Prod.mk.injEq] at hs
    rcases hs with ⟨-, rfl⟩ | ⟨-, rfl⟩
    · have : intLit "3" = some 3 := by decide +kernel
      have : n = 3 := by simp_all
      omega
    · have : intLit "5" = some 5 := by decide +kernel
      have : n = 5 := by simp_all
      omega
  · intro s hs
    simp [Tree.lits] at hs

end Examples

end Spffl.Props.Cmd109
