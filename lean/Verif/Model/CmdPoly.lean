import Verif.Model.Cmd
import Verif.Model.F2Factor
import Verif.Model.Units
import Verif.Model.Lists
import Verif.Model.LinAlg
import Verif.Model.Cyclo
import Verif.Model.PolyText
import Verif.Model.ExprInst3

/-!
# Commands of the command-line tool: polynomials

`/repo/cli/spiff/f2_poly_handlers.cpp`, `/repo/cli/spiff/fp_poly_handlers.cpp`, `/repo/cli/spiff/f2n_poly_handlers.cpp`.

The bodies of these three files are the same up to the type of the polynomials; they are written once here, for any type with the
functions in `Tool`, and the three files say how the arguments are taken apart.  Not modelled: the commands that draw random numbers
(`*_random`, `*_find -r`) and standard error.
-/

namespace Spffl.Cmd
open Res Scan Lists LinAlg Cyclo

/-- What a type of polynomials offers to the commands. -/
structure Tool (α : Type) where
  /-- `from_string`; `none` is the return value `false` -/
  read : List Char → Res (Option α)
  /-- `operator<<` -/
  sh : α → Res (List Char)
  deg : α → Res Int
  O : EltOps α
  ne : α → α → Res Bool
  add : α → α → Res α
  gcd : α → α → Res α
  ext : α → α → Res (α × α × α)
  factor : α → Res (FacInfo α)
  totient : α → Res Int
  irr : α → Res Bool
  one : Res α

variable {α : Type} (T : Tool α)

/-- `if (!a.from_string(arg)) pusage(argv[0]);`. -/
def readArg (read : List Char → Res (Option α)) (cs : List Char) : Cmd α := do
  match ← lift (read cs) with
  | some a => pure a
  | none => exit1

/-- `std::cout << a`. -/
def put (sh : α → Res (List Char)) (a : α) : Cmd Unit := do
  let t ← lift (sh a)
  out t

/-- `std::cout << a << std::endl`. -/
def putLine (sh : α → Res (List Char)) (a : α) : Cmd Unit := do
  put sh a
  out ['\n']

/-- `if (several) std::cout << a << sep;`. -/
def putLabel (several : Bool) (a : α) (sep : List Char) : Cmd Unit :=
  if several then do
    put T.sh a
    out sep
  else pure ()

/-! ### Degree -/

/-- `/repo/cli/spiff/f2_poly_handlers.cpp:62-70`, `fp_poly_handlers.cpp:122-131`, `f2n_poly_handlers.cpp:84-93`. -/
def deg1 (several : Bool) (cs : List Char) : Cmd Unit := do
  let a ← readArg T.read cs
  putLabel T several a ": ".toList
  let d ← lift (T.deg a)
  outLine (showInt d)

/-! ### Greatest common divisor and least common multiple -/

/-- `/repo/cli/spiff/f2_poly_handlers.cpp:110-115` and `136-141`: the remaining arguments combined one after the other. -/
def foldPolys (op : α → α → Res α) : α → List (List Char) → Cmd α
  | g, [] => pure g
  | g, cs :: r => do
    let a ← readArg T.read cs
    let g ← lift (op g a)
    foldPolys op g r

/-- `/repo/cli/spiff/f2_poly_handlers.cpp:102-116` and `127-143`. -/
def foldPolyCmd (op : α → α → Res α) (args : List (List Char)) : Cmd Unit :=
  match args with
  | [] => exit1
  | x :: r => do
    let a ← readArg T.read x
    let g ← foldPolys T op a r
    putLine T.sh g

/-- `(l * a) / l.gcd(a)`, `/repo/cli/spiff/f2_poly_handlers.cpp:140`, `fp_poly_handlers.cpp:202`, `f2n_poly_handlers.cpp:172`.  (C++ does
not say which operand is computed first.) -/
def lcmOp (l a : α) : Res α := do
  let m ← T.O.mul l a
  let g ← T.gcd l a
  T.O.div m g

/-- `/repo/cli/spiff/f2_poly_handlers.cpp:85-100`, `f2n_poly_handlers.cpp:126-141`, and without the test
`fp_poly_handlers.cpp:163-171`. -/
def extCmd (test : Bool) (x y : List Char) : Cmd Unit := do
  let a ← readArg T.read x
  let b ← readArg T.read y
  let (g, r, s) ← lift (T.ext a b)
  put T.sh g
  out " = ".toList
  put T.sh r
  out " * ".toList
  put T.sh a
  out " + ".toList
  put T.sh s
  out " * ".toList
  putLine T.sh b
  if test then do
    let ar ← lift (T.O.mul a r)
    let bs ← lift (T.O.mul b s)
    let check ← lift (T.add ar bs)
    let bad ← lift (T.ne g check)
    if bad then exit1 else pure ()
  else pure ()

/-- `/repo/cli/spiff/fp_poly_handlers.cpp:148-155`, `f2n_poly_handlers.cpp:110-117`. -/
def gcdCmd (x y : List Char) : Cmd Unit := do
  let a ← readArg T.read x
  let b ← readArg T.read y
  let g ← lift (T.gcd a b)
  putLine T.sh g

/-! ### Totient and irreducibility -/

/-- `/repo/cli/spiff/f2_poly_handlers.cpp:157-166`, `fp_poly_handlers.cpp:223-232`, `f2n_poly_handlers.cpp:193-202`. -/
def totient1 (several : Bool) (cs : List Char) : Cmd Unit := do
  let a ← readArg T.read cs
  let phi ← lift (T.totient a)
  putLabel T several a ": ".toList
  outLine (showInt phi)

/-- `/repo/cli/spiff/fp_poly_handlers.cpp:250-263`, `f2n_poly_handlers.cpp:220-233`. -/
def test1 (several : Bool) (cs : List Char) : Cmd Unit := do
  let a ← readArg T.read cs
  putLabel T several a ": ".toList
  let b ← lift (T.irr a)
  if b then out "IRREDUCIBLE\n".toList else out "reducible\n".toList

/-! ### Factors and divisors -/

/-- `/repo/spffl/containers/tfacinfo.h:480-486`: one factor, with its exponent unless that is 1. -/
def putPower (sh : α → Res (List Char)) (p : α × Int) : Cmd Unit := do
  put sh p.1
  if p.2 ≠ 1 then out ('^' :: showInt p.2) else pure ()

/-- The factors after the first thing written, each with a space before it, `/repo/spffl/containers/tfacinfo.h:477-487`. -/
def putPowers (sh : α → Res (List Char)) : List (α × Int) → Cmd Unit
  | [] => pure ()
  | p :: l => do
    out [' ']
    putPower sh p
    putPowers sh l

/-- `operator<<`, `/repo/spffl/containers/tfacinfo.h:471-488`. -/
def putFac (sh : α → Res (List Char)) (f : FacInfo α) : Cmd Unit :=
  match f.unit, f.facs with
  | some u, l => do
    put sh u
    putPowers sh l
  | none, [] => pure ()
  | none, p :: l => do
    putPower sh p
    putPowers sh l

/-- `/repo/cli/spiff/f2_poly_handlers.cpp:309-329`, `fp_poly_handlers.cpp:327-347`, `f2n_poly_handlers.cpp:295-317`. -/
def factor1 (several : Bool) (cs : List Char) : Cmd Unit := do
  let a ← readArg T.read cs
  putLabel T several a " = ".toList
  let finfo ← lift (T.factor a)
  putFac T.sh finfo
  out ['\n']
  let one ← lift T.one
  let check ← lift (FacInfo.unfactor T.O finfo one)
  let bad ← lift (T.ne check a)
  if bad then exit1 else pure ()

/-- `for (int k = 0; k < nd; k++) { if (k > 0) std::cout << " "; std::cout << divisors[k]; }`,
`/repo/cli/spiff/f2_poly_handlers.cpp:365-371`. -/
def putSpaced (sh : α → Res (List Char)) : List α → Cmd Unit
  | [] => pure ()
  | [a] => put sh a
  | a :: l => do
    put sh a
    out [' ']
    putSpaced sh l

/-- The loop over the polynomials in `/repo/cli/spiff/f2_poly_handlers.cpp:346-373`, `fp_poly_handlers.cpp:373-399`,
`f2n_poly_handlers.cpp:344-370`. -/
def divisors1 (mp several : Bool) (cs : List Char) : Cmd Unit := do
  let a ← readArg T.read cs
  putLabel T several a ": ".toList
  let finfo ← lift (T.factor a)
  let one ← lift T.one
  if mp then do
    match ← lift (FacInfo.get_maximal_proper_divisors T.O finfo one) with
    | none => out "(none)\n".toList
    | some l => do
      putSpaced T.sh l
      out ['\n']
  else do
    let l ← lift (FacInfo.get_all_divisors T.O finfo one)
    putSpaced T.sh l
    out ['\n']

/-! ### Lists -/

/-- `tvector::crout`, `/repo/spffl/containers/tvector.h:227-232`. -/
def crout (sh : α → Res (List Char)) : List α → Cmd Unit
  | [] => pure ()
  | a :: l => do
    putLine sh a
    crout sh l

/-- One round for each degree of the range `cs`: `/repo/cli/spiff/f2_poly_handlers.cpp:32-44`, `260-279`, and the like. -/
def degrees (body : Int → Cmd Unit) (cs : List Char) : Cmd Unit := do
  let r ← rangeArg cs
  forRange body (r.2 - r.1 + 1).toNat r.1 r.2

/-! ### Polynomials over F2: `/repo/cli/spiff/f2_poly_handlers.cpp` -/

/-- `f2_poly_t::from_string`, `/repo/spffl/polynomials/f2_poly_t.cpp:68-73`. -/
def f2FromString (cs : List Char) : Res (Option F2P) := do
  let r ← F2P.read cs
  ok (if r.2.1 then none else some r.1)

/-- `f2_poly_t`; `tm` is the mask of `bit_vector_t`, see `Model/BitVector.lean`. -/
def f2Tool (tm : TrimMask) : Tool F2P where
  read := f2FromString
  sh := F2P.print
  deg a := do
    let d ← F2P.find_degree a
    ok d
  O := F2P.eltOps
  ne := F2P.ne
  add := F2P.add
  gcd := F2P.gcd
  ext := F2P.ext_gcd
  factor := F2P.factor tm
  totient := F2P.totient tm
  irr := F2P.is_irreducible tm
  one := ok F2P.one

variable (tm : TrimMask)

/-- `/repo/cli/spiff/f2_poly_handlers.cpp:26-46`. -/
def f2_p_list (args : List (List Char)) : Cmd Unit :=
  match args with
  | [cs] => degrees (fun deg => do
      let elts ← lift (f2_poly_list deg)
      crout F2P.print elts) cs
  | _ => exit1

/-- `/repo/cli/spiff/f2_poly_handlers.cpp:60-72`. -/
def f2_p_deg (args : List (List Char)) : Cmd Unit := args.forM (deg1 (f2Tool tm) (1 < args.length))

/-- `/repo/cli/spiff/f2_poly_handlers.cpp:79-119`. -/
def f2_p_gcd (args : List (List Char)) : Cmd Unit :=
  match args with
  | ['-', 'e'] :: [x, y] => extCmd (f2Tool tm) true x y
  | ['-', 'e'] :: _ => exit1
  | r => foldPolyCmd (f2Tool tm) F2P.gcd r

/-- `/repo/cli/spiff/f2_poly_handlers.cpp:126-144`. -/
def f2_p_lcm (args : List (List Char)) : Cmd Unit := foldPolyCmd (f2Tool tm) (lcmOp (f2Tool tm)) args

/-- `/repo/cli/spiff/f2_poly_handlers.cpp:151-168`. -/
def f2_p_totient (args : List (List Char)) : Cmd Unit :=
  if args.length < 1 then exit1 else args.forM (totient1 (f2Tool tm) (1 < args.length))

/-- `-i`, `-p` and `-ip`: whether to ask for irreducibility and for primitivity, `/repo/cli/spiff/f2_poly_handlers.cpp:182-193` and
`248-259`. -/
def f2Kind : List Char → Cmd (Bool × Bool)
  | ['-', 'i'] => pure (true, false)
  | ['-', 'p'] => pure (false, true)
  | ['-', 'i', 'p'] => pure (true, true)
  | _ => exit1

/-- `/repo/cli/spiff/f2_poly_handlers.cpp:195-221`. -/
def f2_p_test1 (irr prim : Bool) (cs : List Char) : Cmd Unit := do
  let a ← readArg f2FromString cs
  putLabel (f2Tool tm) true a ": ".toList
  (if irr then do
    let b ← lift (F2P.is_irreducible tm a)
    out (if b then "IRREDUCIBLE".toList else "reducible".toList)
  else pure ())
  (if irr && prim then out [' '] else pure ())
  (if prim then do
    let b ← lift (F2U.is_primitive tm a)
    out (if b then "PRIMITIVE".toList else "imprimitive".toList)
  else pure ())
  out ['\n']

/-- `/repo/cli/spiff/f2_poly_handlers.cpp:176-223`. -/
def f2_p_test (args : List (List Char)) : Cmd Unit :=
  match args with
  | k :: x :: r => do
    let (irr, prim) ← f2Kind k
    (x :: r).forM (f2_p_test1 tm irr prim)
  | _ => exit1

/-- `/repo/cli/spiff/f2_poly_handlers.cpp:269-279`, not random. -/
def f2_p_find1 (irr prim : Bool) (deg : Int) : Cmd Unit := do
  let a ← lift (if prim then F2U.find_prim tm deg irr else F2P.find_irreducible tm deg)
  putLine F2P.print a

/-- `/repo/cli/spiff/f2_poly_handlers.cpp:232-281`, with the first argument `-1`; `args` are the others. -/
def f2_p_find (args : List (List Char)) : Cmd Unit :=
  match args with
  | [k, cs] => do
    let (irr, prim) ← f2Kind k
    degrees (f2_p_find1 tm irr prim) cs
  | _ => exit1

/-- `/repo/cli/spiff/f2_poly_handlers.cpp:290-298`. -/
def f2_p_period1 (several : Bool) (cs : List Char) : Cmd Unit := do
  let a ← readArg f2FromString cs
  putLabel (f2Tool tm) several a ": ".toList
  let n ← lift (F2U.period tm a)
  outLine (showInt n)

/-- `/repo/cli/spiff/f2_poly_handlers.cpp:288-300`. -/
def f2_p_period (args : List (List Char)) : Cmd Unit := args.forM (f2_p_period1 tm (1 < args.length))

/-- `/repo/cli/spiff/f2_poly_handlers.cpp:307-331`. -/
def f2_p_factor (args : List (List Char)) : Cmd Unit := args.forM (factor1 (f2Tool tm) (1 < args.length))

/-- `/repo/cli/spiff/f2_poly_handlers.cpp:338-375`. -/
def f2_p_divisors (args : List (List Char)) : Cmd Unit :=
  match args with
  | ['-', 'm', 'p'] :: r => r.forM (divisors1 (f2Tool tm) true (1 < r.length))
  | r => r.forM (divisors1 (f2Tool tm) false (1 < r.length))

/-- `bit_t::from_string`, `/repo/spffl/bits/bit_t.cpp:45-55`. -/
def bitOfString (cs : List Char) : Res (Option Bool) := ok (BText.bitFromString cs)

/-- `f2_poly_t::eval(bit_t)`, `/repo/spffl/polynomials/f2_poly_t.cpp:398-400`, printed. -/
def f2_p_eval1 (f : F2P) (cs : List Char) : Cmd Unit := do
  let a ← readArg bitOfString cs
  let v ← lift (F2P.eval f (if a then 1 else 0))
  putLine (fun b => ok (BText.showBit b)) ((BitT.ofInt v).residue != 0)

/-- `/repo/cli/spiff/f2_poly_handlers.cpp:382-401`. -/
def f2_p_eval (args : List (List Char)) : Cmd Unit :=
  match args with
  | x :: y :: r => do
    let f ← readArg f2FromString x
    (y :: r).forM (f2_p_eval1 f)
  | _ => exit1

/-- `/repo/cli/spiff/f2_poly_handlers.cpp:435-449`. -/
def f2_p_comp_mx (args : List (List Char)) : Cmd Unit :=
  match args with
  | [x] => do
    let chpol ← readArg f2FromString x
    let A ← lift (f2_companion_matrix chpol)
    putLine (VText.showMat (Expr.bitIO 0)) A
  | _ => exit1

/-- `q_poly_t::from_string`, `/repo/spffl/polynomials/q_poly_t.cpp:714-778`; what is left dangling by a failed call is not used. -/
def qOfString (cs : List Char) : Res (Option (CPoly IntRat)) := do
  let r ← PText.qFromString cs
  ok (match r with
    | .val p => some p
    | _ => none)

/-- `/repo/cli/spiff/f2_poly_handlers.cpp:469-475`. -/
def f2_p_qp1 (cs : List Char) : Cmd Unit := do
  let q ← readArg qOfString cs
  let f ← lift (f2_poly_from_q_poly q)
  putLine F2P.print f

/-- `/repo/cli/spiff/f2_poly_handlers.cpp:463-477`. -/
def f2_p_qp (args : List (List Char)) : Cmd Unit := if args.length < 1 then exit1 else args.forM f2_p_qp1

end Spffl.Cmd
