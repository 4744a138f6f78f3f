import Verif.Model.CmdCalcRat
import Verif.Props.CmdCalc
import Verif.Props.PolyRatText

/-!
# C109: the calculators for quotients of polynomials
-/

namespace Spffl.Props.Cmd109
open Res Scan Polynomial Spffl.Cmd Spffl.Expr PText93 VText94 Expr90 Expr96 Expr98 Expr99
open F2P (Canon toPoly nval)
open CPoly (PRep polyLt)
open PRat (fracOrd QText)
open Cmd101 (IsHex)

variable {t : Tree} {ts k : List String}

/-- C109, f2_pr_op. -/
theorem C109_f2_pr_op {lit : String → Option (RatFunc (ZMod 2))} (hd : Derives scalarG .Q t ts) (hk : Tail k)
    (hv : Literals (QText HexWord) lit t) (hi : Exponents t) :
    CAnswers False (QText HexWord) k (f2_pr_op (argv ts k)) (denSQ (fieldSem _) lit intLit (fracOrd fun x y => nval x < nval y) t) := by
  refine of_answers ?_ (C99_f2 hd hv hi)
  have e' : f2PrOp ts = _ := (pair_eq _ _ fun z o => calcOp (PRat.eops F2P.rops) (PRat.io F2P.rops F2P.rtext) z o ts).symm
  rw [e']
  exact Follows.lift_bind fun z _ => scalar_follows z hd hk

/-- C109, f2_pr_mat_op. -/
theorem C109_f2_pr_mat_op {files : String → Option (List Char)} (hd : Derives matG .Q t ts) (hk : Tail k)
    (hl : MLiterals (QText HexWord) files t) (hi : Exponents t) :
    CMAnswers False (QText HexWord) k (f2_pr_mat_op files (argv ts k)) (MDen (MLit (QText HexWord) files) false t) := by
  refine of_manswers ?_ (C99_f2_matrix hd hl hi)
  have e' : f2PrMatOp files ts = _ := (pair_eq _ _ fun z o =>
    matOp (PRat.tops F2P.rops ⟨F2P.zero, F2P.one⟩) (PRat.io F2P.rops F2P.rtext) files z o ts).symm
  rw [e']
  exact Follows.lift_bind fun z _ => mat_follows z hd hk

section fp
variable {p : ℕ} [hp : Fact p.Prime] {x : List Char}

/-- C109, fp_pr_op, where there is no unary minus. -/
theorem C109_fp_pr_op_partial (hb : p ≤ 46341) (hx : IsInt x p) {lit : String → Option (RatFunc (ZMod p))} (hd : Derives scalarG .Q t ts)
    (hk : Tail k) (hv : Literals (QText (FpText p)) lit t) (hn : NoNeg t) (hi : Exponents t) :
    CAnswers False (QText (FpText p)) k (fp_pr_op (x :: argv ts k))
      (denSQ (fieldSem _) lit intLit (fracOrd (polyLt fun x y => x.val < y.val)) t) := by
  have F : Follows ['\n'] k (fpPrOp p ts) (fp_pr_op (x :: argv ts k)) := by
    have e : fp_pr_op (x :: argv ts k) = _ := skip (intArg_prints hx) _
    have e' : fpPrOp p ts = _ := (pair_eq _ _ fun z o =>
      calcOp (PRat.eops (CPoly.rops IntMod.cops)) (PRat.io (CPoly.rops IntMod.cops) fpRText) z o ts).symm
    rw [e, e']
    exact Follows.lift_bind fun z _ => scalar_follows z hd hk
  have h := C99_fp_partial hb hd hv hn hi
  convert of_answers F h

/-- C109, fp_pr_mat_op, where there is no unary minus and no `kerbas`. -/
theorem C109_fp_pr_mat_op_partial (hb : p ≤ 46341) (hx : IsInt x p) {files : String → Option (List Char)} (hd : Derives matG .Q t ts)
    (hk : Tail k) (hl : MLiterals (QText (FpText p)) files t) (hn : ¬ Minus t) (hi : Exponents t) :
    CMAnswers False (QText (FpText p)) k (fp_pr_mat_op files (x :: argv ts k)) (MDen (MLit (QText (FpText p)) files) false t) := by
  refine of_manswers ?_ (C99_fp_matrix_partial hb hd hl hn hi)
  have e : fp_pr_mat_op files (x :: argv ts k) = _ := skip (intArg_prints hx) _
  have e' : fpPrMatOp p files ts = _ := (pair_eq _ _ fun z o =>
    matOp (PRat.tops (CPoly.rops IntMod.cops) ⟨⟨0, [⟨0, 1⟩]⟩, ⟨0, [⟨0, 1⟩]⟩⟩) (PRat.io (CPoly.rops IntMod.cops) fpRText) files z o ts).symm
  rw [e, e']
  exact Follows.lift_bind fun z _ => mat_follows z hd hk

end fp

section f2n
variable {m : (ZMod 2)[X]} [hm : Fact (Irreducible m)] {x : List Char}

/-- C109, f2n_pr_op. -/
theorem C109_f2n_pr_op_partial (hx : IsHex x m) {lit : String → Option (RatFunc (AdjoinRoot m))} (hd : Derives scalarG .Q t ts) (hk : Tail k)
    (hv : Literals (QText (Colons (HexRep m))) lit t) :
    (NoNeg t → Exponents t → CAnswers False (QText (Colons (HexRep m))) k (f2n_pr_op (x :: argv ts k))
      (denSQ (fieldSem _) lit intLit (fracOrd (polyLt (F2Mod.ordQ m))) t)) ∧
    CAnswers True (QText (Colons (HexRep m))) k (f2n_pr_op (x :: argv ts k))
      (denSQ (fieldSem _) lit intLit (fracOrd (polyLt (F2Mod.ordQ m))) t) := by
  obtain ⟨mm, h1, h2, h3⟩ := Cmd103.par hx
  have F : Follows ['\n'] k (f2nPrOp mm ts) (f2n_pr_op (x :: argv ts k)) := by
    have e : f2n_pr_op (x :: argv ts k) = _ := skip h1 _
    have e' : f2nPrOp mm ts = _ := (pair_eq _ _ fun z o =>
      calcOp (PRat.eops (CPoly.rops F2Mod.cops)) (PRat.io (CPoly.rops F2Mod.cops) f2nRText) z o ts).symm
    rw [e, e']
    exact Follows.lift_bind fun z _ => scalar_follows z hd hk
  have h := C99_f2n_partial h2 h3 hd hv
  exact ⟨fun h1 h2 => of_answers F (h.1 h1 h2), of_answers F h.2⟩

/-- C109, f2n_pr_mat_op. -/
theorem C109_f2n_pr_mat_op_partial (hx : IsHex x m) {files : String → Option (List Char)} (hd : Derives matG .Q t ts) (hk : Tail k)
    (hl : MLiterals (QText (Colons (HexRep m))) files t) :
    (¬ Minus t → Exponents t → CMAnswers False (QText (Colons (HexRep m))) k (f2n_pr_mat_op files (x :: argv ts k))
      (MDen (MLit (QText (Colons (HexRep m))) files) false t)) ∧
    CMAnswers True (QText (Colons (HexRep m))) k (f2n_pr_mat_op files (x :: argv ts k))
      (MDen (MLit (QText (Colons (HexRep m))) files) false t) := by
  obtain ⟨mm, h1, h2, h3⟩ := Cmd103.par hx
  have F : Follows [] k (f2nPrMatOp mm files ts) (f2n_pr_mat_op files (x :: argv ts k)) := by
    have e : f2n_pr_mat_op files (x :: argv ts k) = _ := skip h1 _
    have e' : f2nPrMatOp mm files ts = _ := (pair_eq _ _ fun z o => matOp (PRat.tops (CPoly.rops F2Mod.cops)
      ⟨⟨0, [⟨F2P.zero, F2P.one⟩]⟩, ⟨0, [⟨F2P.zero, F2P.one⟩]⟩⟩) (PRat.io (CPoly.rops F2Mod.cops) f2nRText) files z o ts).symm
    rw [e, e']
    exact Follows.lift_bind fun z _ => mat_follows z hd hk
  have h := C99_f2n_matrix_partial h2 h3 hd hl
  exact ⟨fun h1 h2 => of_manswers F (h.1 h1 h2), of_manswers F h.2⟩

end f2n

/-- C109: an argument before the expression that is missing or cannot be read: status 1 and nothing printed. -/
theorem C109_rat_usage (files : String → Option (List Char)) (x : List Char) (r : List (List Char)) :
    (∀ c ∈ [fp_pr_op, fp_pr_mat_op files], Exits (c []) [] ∧ (NotInt x → Exits (c (x :: r)) [])) ∧
    (∀ c ∈ [f2n_pr_op, f2n_pr_mat_op files], Exits (c []) [] ∧ ((∀ f, ¬ IsHex x f) → Exits (c (x :: r)) [])) := by
  refine ⟨fun c hc => ?_, fun c hc => ?_⟩
  · simp only [List.mem_cons, List.not_mem_nil, or_false] at hc
    rcases hc with rfl | rfl <;> exact ⟨exits_exit1, fun h => (intArg_exits h).bind⟩
  · simp only [List.mem_cons, List.not_mem_nil, or_false] at hc
    rcases hc with rfl | rfl <;> exact ⟨exits_exit1, fun h => (Cmd101.readArg_no h : Exits (f2Arg x) []).bind⟩

/-! ### Examples -/

private def a (l : List String) : List (List Char) := l.map String.toList
private def noFiles : String → Option (List Char) := fun _ => none

example : (f2_pr_op (a ["5/6", "+", "1/4", ")"])).run = ok ("7/4\n".toList, .thrown) := by decide +kernel
example : (fp_pr_op (a ["7", "12/34", "*", "3"])).run = ok ("53/52\n".toList, .val ()) ∧
    (fp_pr_op (a ["7", "1/0"])).run = ok ([], .thrown) := by decide +kernel
example : (f2n_pr_op (a ["7", "2:1/3", "/", "2:1"])).run = ok ("2\n".toList, .val ()) := by decide +kernel
example : (f2n_pr_mat_op noFiles (a ["7", "[[1/1:0 1][3 1/3]]", "^", "2"])).run =
    ok ("3:0:1/1:0:0 2:1/1:0\n2:1/2:0 0\n".toList, .val ()) := by decide +kernel
example : (f2_pr_mat_op noFiles (a ["[[1/2 1][3 1/3]]", "*", "[[1/2 1][3 1/3]]"])).run = ok ("d/4 1/6\n1/2 e/5\n".toList, .val ()) := by
  decide +kernel

end Spffl.Props.Cmd109
