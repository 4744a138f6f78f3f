import Verif.Model.CmdPoly
import Verif.Model.CFactor

/-!
# Commands of the command-line tool: polynomials over Fp and over F2^n

`/repo/cli/spiff/fp_poly_handlers.cpp` and `/repo/cli/spiff/f2n_poly_handlers.cpp`.

The two files are the same up to the types, the way the first argument (the prime; the modulus of the field) is read, and the test after
the extended algorithm, which only the second has.  So the commands are written once, with `par` for reading the first argument.
Not modelled: `*_random`, `*_find -r`, standard error.
-/

namespace Spffl.Cmd
open Res Scan Lists LinAlg Cyclo

/-- What a failed `from_string` leaves behind is not used. -/
def parsed {β : Type} (r : PText.Parsed β) : Option (CPoly β) :=
  match r with
  | .val p => some p
  | _ => none

/-- `operator!=`, `/repo/spffl/polynomials/fp_poly_t.cpp:659-661`, `f2n_poly_t.cpp:683-685`. -/
def polyNe {β : Type} (O : CoefOps β) (a b : CPoly β) : Res Bool := do
  let d ← CPoly.cmp O a b
  ok (d != 0)

/-- The functions of `fp_poly_t` and `f2n_poly_t`. -/
def fieldTool {β : Type} (X : FCtx β) (read : List Char → Res (PText.Parsed β)) (sh : CPoly β → Res (List Char)) (c1 : Res β) :
    Tool (CPoly β) where
  read cs := do
    let r ← read cs
    ok (parsed r)
  sh := sh
  deg a := ok a.degree
  O := CPoly.ops X.O
  ne := polyNe X.O
  add := CPoly.add X.O
  gcd := CPoly.gcd X.O
  ext := CPoly.ext_gcd X.O
  factor := CFac.factor X
  totient := CFac.totient X
  irr := CFac.is_irreducible X
  one := do
    let c ← c1
    CPoly.const X.O c

section
variable {π α β : Type} (par : List Char → Cmd π) (tool : π → Tool α)

/-- `/repo/cli/spiff/fp_poly_handlers.cpp:113-133`, `f2n_poly_handlers.cpp:75-95`. -/
def pDeg : List (List Char) → Cmd Unit
  | m :: r => do
    let m ← par m
    r.forM (deg1 (tool m) (1 < r.length))
  | [] => exit1

/-- `/repo/cli/spiff/fp_poly_handlers.cpp:140-177`, `f2n_poly_handlers.cpp:102-147`. -/
def pGcd (test : Bool) : List (List Char) → Cmd Unit
  | [m, x, y] => do
    let m ← par m
    gcdCmd (tool m) x y
  | [e, m, x, y] =>
    if e ≠ ['-', 'e'] then exit1
    else do
      let m ← par m
      extCmd (tool m) test x y
  | _ => exit1

/-- `/repo/cli/spiff/fp_poly_handlers.cpp:184-206`, `f2n_poly_handlers.cpp:154-176`. -/
def pLcm : List (List Char) → Cmd Unit
  | m :: x :: r => do
    let m ← par m
    foldPolyCmd (tool m) (lcmOp (tool m)) (x :: r)
  | _ => exit1

/-- `/repo/cli/spiff/fp_poly_handlers.cpp:213-234`, `f2n_poly_handlers.cpp:183-203`. -/
def pTotient : List (List Char) → Cmd Unit
  | m :: x :: r => do
    let m ← par m
    (x :: r).forM (totient1 (tool m) (1 < (x :: r).length))
  | _ => exit1

/-- `/repo/cli/spiff/fp_poly_handlers.cpp:241-265`, `f2n_poly_handlers.cpp:211-235`. -/
def pTest : List (List Char) → Cmd Unit
  | m :: r => do
    let m ← par m
    r.forM (test1 (tool m) (1 < r.length))
  | [] => exit1

/-- `/repo/cli/spiff/fp_poly_handlers.cpp:272-309`, `f2n_poly_handlers.cpp:242-279`, with the first argument `-1`; the list is the other
arguments. -/
def pFind (find : π → Int → Res α) : List (List Char) → Cmd Unit
  | [m, cs] => do
    let m ← par m
    degrees (fun deg => do
      let a ← lift (find m deg)
      putLine (tool m).sh a) cs
  | _ => exit1

/-- `/repo/cli/spiff/fp_poly_handlers.cpp:316-349`, `f2n_poly_handlers.cpp:286-319`. -/
def pFactor : List (List Char) → Cmd Unit
  | m :: r => do
    let m ← par m
    r.forM (factor1 (tool m) (1 < r.length))
  | [] => exit1

/-- `/repo/cli/spiff/fp_poly_handlers.cpp:365-401`, `f2n_poly_handlers.cpp:335-372`. -/
def pDivs (mp : Bool) : List (List Char) → Cmd Unit
  | m :: x :: r => do
    let m ← par m
    let _ ← lift (tool m).one
    (x :: r).forM (divisors1 (tool m) mp (1 < (x :: r).length))
  | _ => exit1

/-- `/repo/cli/spiff/fp_poly_handlers.cpp:356-401`, `f2n_poly_handlers.cpp:326-372`. -/
def pDivisors (args : List (List Char)) : Cmd Unit :=
  match args with
  | ['-', 'm', 'p'] :: r => pDivs par tool true r
  | r => pDivs par tool false r

/-- `/repo/cli/spiff/fp_poly_handlers.cpp:423-429`, `f2n_poly_handlers.cpp:394-400`. -/
def pEval1 (rd : List Char → Res (Option β)) (sh : β → Res (List Char)) (eval : α → β → Res β) (f : α) (cs : List Char) : Cmd Unit := do
  let a ← readArg rd cs
  let b ← lift (eval f a)
  putLine sh b

/-- `/repo/cli/spiff/fp_poly_handlers.cpp:408-432`, `f2n_poly_handlers.cpp:379-402`. -/
def pEval (rd : π → List Char → Res (Option β)) (sh : β → Res (List Char)) (eval : α → β → Res β) : List (List Char) → Cmd Unit
  | m :: f :: y :: r => do
    let m ← par m
    let f ← readArg (tool m).read f
    (y :: r).forM (pEval1 (rd m) sh eval f)
  | _ => exit1

/-- `/repo/cli/spiff/fp_poly_handlers.cpp:87-106`, `f2n_poly_handlers.cpp:440-459`. -/
def pCompMx (comp : α → Res (TMat β)) (E : VText.EltIO β) : List (List Char) → Cmd Unit
  | [m, x] => do
    let m ← par m
    let chpol ← readArg (tool m).read x
    let A ← lift (comp chpol)
    putLine (VText.showMat E) A
  | _ => exit1

/-- `/repo/cli/spiff/fp_poly_handlers.cpp:478-485`, `f2n_poly_handlers.cpp:476-482`. -/
def pQp1 (sh : α → Res (List Char)) (conv : CPoly IntRat → Res α) (cs : List Char) : Cmd Unit := do
  let q ← readArg qOfString cs
  let f ← lift (conv q)
  putLine sh f

/-- `/repo/cli/spiff/fp_poly_handlers.cpp:468-487`, `f2n_poly_handlers.cpp:466-484`. -/
def pQp (conv : CPoly IntRat → π → Res α) : List (List Char) → Cmd Unit
  | m :: x :: r => do
    let m ← par m
    (x :: r).forM (pQp1 (tool m).sh fun q => conv q m)
  | _ => exit1

/-- `/repo/cli/spiff/fp_poly_handlers.cpp:21-42`, `f2n_poly_handlers.cpp:23-46`. -/
def pList (list : π → Int → Res (List α)) : List (List Char) → Cmd Unit
  | [m, cs] => do
    let m ← par m
    degrees (fun deg => do
      let elts ← lift (list m deg)
      crout (tool m).sh elts) cs
  | _ => exit1

end

/-! ### `/repo/cli/spiff/fp_poly_handlers.cpp` -/

/-- `fp_poly_t` with the modulus `p`. -/
def fpTool (p : Int) : Tool (CPoly IntMod) := fieldTool FpP.ctx (PText.fpFromString p) PText.fpShow (IntMod.mk' 1 p)

def fp_p_deg := pDeg intArg fpTool
def fp_p_gcd := pGcd intArg fpTool false
def fp_p_lcm := pLcm intArg fpTool
def fp_p_totient := pTotient intArg fpTool
def fp_p_test := pTest intArg fpTool
def fp_p_find := pFind intArg fpTool FpP.find_irr
def fp_p_factor := pFactor intArg fpTool
def fp_p_divisors := pDivisors intArg fpTool
def fp_p_eval := pEval intArg fpTool (fun p cs => modFromString p cs) showMod (CPoly.eval IntMod.cops)
def fp_p_comp_mx := pCompMx intArg fpTool fp_companion_matrix VText.modIO
def fp_p_qp := pQp intArg fpTool fp_poly_from_qpoly
def fp_p_list := pList intArg fpTool fp_poly_list

/-! ### `/repo/cli/spiff/f2n_poly_handlers.cpp` -/

/-- `f2n_poly_t` with the modulus `m`. -/
def f2nTool (m : F2P) : Tool (CPoly F2Mod) := fieldTool F2nP.ctx (PText.f2nFromString m) PText.f2nShow (F2Mod.mk' F2P.one m)

/-- `m.from_string(argv[1])`. -/
def f2Arg : List Char → Cmd F2P := readArg f2FromString

def f2n_p_deg := pDeg f2Arg f2nTool
def f2n_p_gcd := pGcd f2Arg f2nTool true
def f2n_p_lcm := pLcm f2Arg f2nTool
def f2n_p_totient := pTotient f2Arg f2nTool
def f2n_p_test := pTest f2Arg f2nTool
def f2n_p_find := pFind f2Arg f2nTool F2nP.find_irr
def f2n_p_factor := pFactor f2Arg f2nTool
def f2n_p_divisors := pDivisors f2Arg f2nTool
def f2n_p_eval := pEval f2Arg f2nTool PText.f2nOne PText.f2ModShow (CPoly.eval F2Mod.cops)
def f2n_p_comp_mx := pCompMx f2Arg f2nTool f2np_companion_matrix VText.f2ModIO
def f2n_p_qp := pQp f2Arg f2nTool f2n_poly_from_qpoly
def f2n_p_list := pList f2Arg f2nTool f2n_poly_list

end Spffl.Cmd
