import Verif.Base.Ops
import Verif.Model.CPoly

/-!
# The command-line expression evaluators

Models of `/repo/spffl/cli_parser/cmd_line_ops.h` (scalars), `cmd_line_vector_ops.h` (vectors) and
`cmd_line_matrix_ops.h` (matrices).

The three headers hold the same recursive-descent parser three times.  They differ in the spellings they recognise, in
the prefix operators, and in what `emit` does with the values; that difference is the record `Dialect` below, and the
parser is modelled once over it.

Simplifications.
* `rlex_ctx.argi`, `argc` and `argv` are the list of arguments that is still unread.
* `rlex_ctx.atom` is only read while `token` is `L_NUM` (`L_VEC`, `L_MAT`), and is written by the call of `lexan` that
  sets that token; it is modelled as part of the token.
* The stack is a list with the top first (`tstack` itself is modelled in `Model/Stack.lean`).
* The members of an atom that its kind does not use hold unset values which the code copies; they are not modelled.
* `std::cout` is the list of values printed.  Reading a literal from its text is a parameter of the dialect.
* The recursion and the loops take fuel; that it never runs out is proved, not assumed.
-/

namespace Spffl.Expr
open Res

/-- Operator tokens, `/repo/spffl/cli_parser/cmd_line_ops.h:50-67`, `cmd_line_matrix_ops.h:53-75`. -/
inductive Op
  | plus | minus | mul | div | mod | exp | uplus | uminus
  | eq | ne | lt | le | gt | ge
  | rank | inv | det | kerbas | rr | rech | rechr | rrnz | rechnz | transpose
deriving DecidableEq, Repr

/-- What an argument that is not a literal stands for. -/
inductive Sym
  | op (o : Op) | lparen | rparen
deriving DecidableEq, Repr

/-- `rlex_ctx.token`, together with `rlex_ctx.atom` where the token is a literal. -/
inductive Tok (A : Type)
  | num (a : A) | eol | sym (s : Sym)
deriving Repr

/-- The points in which the three evaluators differ. -/
structure Dialect (A : Type) where
  /-- The chain of `strcmp` at the head of `lexan`; `none` is its final `else`. -/
  cls : String → Option Sym
  /-- Reading a literal outside the right-hand side of `^`. -/
  scan : String → Res A
  /-- Reading a literal inside it, `iss >> int_val`. -/
  scanI : String → Res A
  /-- The cases of `F` other than `+` and `-`. -/
  pre : Op → Bool
  /-- The cases of the loop of `T`. -/
  mul : Op → Bool
  /-- The cases of the loop of `C`. -/
  ord : Op → Bool
  /-- The cases of the loop of `Q`. -/
  eqs : Op → Bool
  /-- `emit` for an operator that pops one atom. -/
  un : Op → A → Res A
  /-- `emit` for an operator that pops two. -/
  bin : Op → A → A → Res A

/-- `lex_ctx_t`, `/repo/spffl/cli_parser/cmd_line_ops.h:36-45`. -/
structure Ctx (A : Type) where
  rest : List String
  tok : Tok A
  pow : Nat

/-- The context and the stack. -/
abbrev St (A : Type) := Ctx A × List A

variable {A : Type}

/-- The reading of a literal, `/repo/spffl/cli_parser/cmd_line_ops.h:223-239`. -/
def scanLit (D : Dialect A) (pow : Nat) (s : String) : Res A :=
  if pow ≠ 0 then D.scanI s else D.scan s

/-- `lexan`, `/repo/spffl/cli_parser/cmd_line_ops.h:172-242`, `veclexan`, `cmd_line_vector_ops.h:147-228`,
`matlexan`, `cmd_line_matrix_ops.h:188-282`. -/
def lexan (D : Dialect A) (pow : Nat) : List String → Res (Ctx A)
  | [] => ok ⟨[], .eol, pow⟩
  | s :: r =>
    match D.cls s with
    | some y => ok ⟨r, .sym y, pow⟩
    | none => do
      let a ← scanLit D pow s
      ok ⟨r, .num a, pow⟩

/-- Popping one atom and pushing the result.  An empty stack leaves the local `a` unset, which is then read. -/
def emit1 (D : Dialect A) (o : Op) : List A → Res (List A)
  | a :: k => do
    let c ← D.un o a
    ok (c :: k)
  | [] => ub

/-- Popping two atoms, the right operand first, and pushing the result. -/
def emit2 (D : Dialect A) (o : Op) : List A → Res (List A)
  | b :: a :: k => do
    let c ← D.bin o a b
    ok (c :: k)
  | _ => ub

/-- `rlex_ctx.token` is `L_RPAREN` or not: `match(rlex_ctx, L_RPAREN)`,
`/repo/spffl/cli_parser/cmd_line_ops.h:441-453`. -/
def matchRparen (D : Dialect A) (c : Ctx A) : Res (Ctx A) :=
  match c.tok with
  | .sym .rparen => lexan D c.pow c.rest
  | _ => throw

/-- `match(rlex_ctx, L_EOL)`, same lines. -/
def matchEol (D : Dialect A) (c : Ctx A) : Res (Ctx A) :=
  match c.tok with
  | .eol => lexan D c.pow c.rest
  | _ => throw

/-- `P`, `/repo/spffl/cli_parser/cmd_line_ops.h:455-475`, `cmd_line_vector_ops.h:396-416`,
`cmd_line_matrix_ops.h:522-542`; `e` is `E`. -/
def pP (D : Dialect A) (e : St A → Res (St A)) (s : St A) : Res (St A) :=
  match s.1.tok with
  | .sym .lparen => do
    let c ← lexan D s.1.pow s.1.rest
    let s ← e (c, s.2)
    let c ← matchRparen D s.1
    ok (c, s.2)
  | .num a => do
    let c ← lexan D s.1.pow s.1.rest
    ok (c, a :: s.2)
  | _ => throw

/-- The loop of `U`, `/repo/spffl/cli_parser/cmd_line_ops.h:482-504`, `cmd_line_vector_ops.h:422-442`,
`cmd_line_matrix_ops.h:548-568`; `p` is `P`. -/
def uLoop (D : Dialect A) (p : St A → Res (St A)) : Nat → St A → Res (St A)
  | 0, _ => timeout
  | n + 1, s =>
    match s.1.tok with
    | .sym (.op .exp) => do
      let c ← lexan D (s.1.pow + 1) s.1.rest
      let s ← p (c, s.2)
      let k ← emit2 D .exp s.2
      uLoop D p n ({ s.1 with pow := s.1.pow - 1 }, k)
    | _ => ok s

/-- `F`, `/repo/spffl/cli_parser/cmd_line_ops.h:507-542`, `cmd_line_vector_ops.h:445-471`,
`cmd_line_matrix_ops.h:571-613`; `u` is `U`.  `emit` of `L_UPLUS` leaves the stack alone. -/
def pF (D : Dialect A) (u : St A → Res (St A)) (s : St A) : Res (St A) :=
  match s.1.tok with
  | .sym (.op .plus) => do
    let c ← lexan D s.1.pow s.1.rest
    u (c, s.2)
  | .sym (.op .minus) => do
    let c ← lexan D s.1.pow s.1.rest
    let s ← u (c, s.2)
    let k ← emit1 D .uminus s.2
    ok (s.1, k)
  | .sym (.op o) =>
    if D.pre o then do
      let c ← lexan D s.1.pow s.1.rest
      let s ← u (c, s.2)
      let k ← emit1 D o s.2
      ok (s.1, k)
    else u s
  | _ => u s

/-- The loops of `T`, `E`, `C` and `Q`, `/repo/spffl/cli_parser/cmd_line_ops.h:549-565,573-588,596-613,621-636`,
`cmd_line_vector_ops.h:478-492,500-515,523-538`, `cmd_line_matrix_ops.h:620-634,642-657,665-680`: while the token is
one of the operators `is`, read an operand with `sub` and emit. -/
def binLoop (D : Dialect A) (is : Op → Bool) (sub : St A → Res (St A)) : Nat → St A → Res (St A)
  | 0, _ => timeout
  | n + 1, s =>
    match s.1.tok with
    | .sym (.op o) =>
      if is o then do
        let c ← lexan D s.1.pow s.1.rest
        let s ← sub (c, s.2)
        let k ← emit2 D o s.2
        binLoop D is sub n (s.1, k)
      else ok s
    | _ => ok s

/-- An operand followed by the loop over it. -/
def level (D : Dialect A) (is : Op → Bool) (sub : St A → Res (St A)) (n : Nat) (s : St A) : Res (St A) := do
  let s ← sub s
  binLoop D is sub n s

/-- `U`, `/repo/spffl/cli_parser/cmd_line_ops.h:477-505`, `cmd_line_vector_ops.h:418-443`,
`cmd_line_matrix_ops.h:544-569`. -/
def pU (D : Dialect A) (p : St A → Res (St A)) (n : Nat) (s : St A) : Res (St A) := do
  let s ← p s
  uLoop D p n s

/-- The cases of the loop of `E`. -/
def isAdd : Op → Bool
  | .plus | .minus => true
  | _ => false

/-- `T`, `/repo/spffl/cli_parser/cmd_line_ops.h:544-566`, `cmd_line_vector_ops.h:473-493`,
`cmd_line_matrix_ops.h:615-635`; `e` is `E`, which `P` calls. -/
def pT (D : Dialect A) (e : St A → Res (St A)) (n : Nat) : St A → Res (St A) :=
  level D D.mul (pF D (pU D (pP D e) n)) n

/-- `E`, `/repo/spffl/cli_parser/cmd_line_ops.h:568-589`, `cmd_line_vector_ops.h:495-516`,
`cmd_line_matrix_ops.h:637-658`. -/
def pE (D : Dialect A) : Nat → St A → Res (St A)
  | 0, _ => timeout
  | n + 1, s => level D isAdd (pT D (pE D n) (n + 1)) (n + 1) s

/-- `C`, `/repo/spffl/cli_parser/cmd_line_ops.h:591-614`.  The vector and matrix evaluators call `E` where the scalar
one calls `C`, which is this function with no operators. -/
def pC (D : Dialect A) (n : Nat) : St A → Res (St A) :=
  level D D.ord (pE D n) n

/-- `Q`, `/repo/spffl/cli_parser/cmd_line_ops.h:616-637`, `cmd_line_vector_ops.h:518-539`,
`cmd_line_matrix_ops.h:660-681`. -/
def pQ (D : Dialect A) (n : Nat) : St A → Res (St A) :=
  level D D.eqs (pC D n) n

/-- `stack.pop(result)`, or the throw on underflow. -/
def popResult : List A → Res (A × List A)
  | v :: k => ok (v, k)
  | [] => throw

/-- The loop of `cmd_line_parse`, `/repo/spffl/cli_parser/cmd_line_ops.h:651-665`; `out` is what has been printed. -/
def topLoop (D : Dialect A) : Nat → St A → List A → Res (List A)
  | 0, _, _ => timeout
  | n + 1, s, out =>
    match s.1.tok with
    | .eol => ok out
    | _ => do
      let s ← pQ D (s.1.rest.length + 2) s
      let v ← popResult s.2
      let c ← matchEol D s.1
      topLoop D n (c, v.2) (out ++ [v.1])

/-- `cmd_line_parse`, `/repo/spffl/cli_parser/cmd_line_ops.h:641-666`, `cmd_line_vec_parse`,
`cmd_line_vector_ops.h:543-581`, `cmd_line_mat_parse`, `cmd_line_matrix_ops.h:685-723`, with `lexinit`,
`cmd_line_ops.h:154-170`. -/
def parse (D : Dialect A) (argv : List String) : Res (List A) := do
  let c ← lexan D 0 argv
  topLoop D (argv.length + 2) (c, []) []

/-! ### The scalar evaluator -/

/-- `atom_t`, `/repo/spffl/cli_parser/cmd_line_ops.h:30-34`. -/
inductive Atom (α : Type)
  | val (a : α) | int (n : Int)
deriving DecidableEq, Repr

/-- The operators of `element_type` that `emit` and `clo_exp` use. -/
structure EOps (α : Type) where
  neg : α → Res α
  add : α → α → Res α
  sub : α → α → Res α
  mul : α → α → Res α
  div : α → α → Res α
  mod : α → α → Res α
  eq : α → α → Res Bool
  ne : α → α → Res Bool
  lt : α → α → Res Bool
  le : α → α → Res Bool
  gt : α → α → Res Bool
  ge : α → α → Res Bool

/-- The chain of `strcmp` of `lexan`, `/repo/spffl/cli_parser/cmd_line_ops.h:180-221`. -/
def scalarCls (s : String) : Option Sym :=
  if s = "+" then some (.op .plus)
  else if s = "-" then some (.op .minus)
  else if s = "*" then some (.op .mul)
  else if s = "." then some (.op .mul)
  else if s = "/" then some (.op .div)
  else if s = "%" then some (.op .mod)
  else if s = "^" then some (.op .exp)
  else if s = "==" then some (.op .eq)
  else if s = "!=" then some (.op .ne)
  else if s = "/=" then some (.op .ne)
  else if s = "<" then some (.op .lt)
  else if s = "<=" then some (.op .le)
  else if s = ">" then some (.op .gt)
  else if s = ">=" then some (.op .ge)
  else if s = "(" then some .lparen
  else if s = ")" then some .rparen
  else if s = "[" then some .lparen
  else if s = "]" then some .rparen
  else none

/-- `clo_exp`, `/repo/spffl/cli_parser/cmd_line_ops.h:244-288`.  The comparison `e == -e` is evaluated on signed ints:
for the least int the negation overflows before the comparison can find it out.  The loop is lines 279-285. -/
def clo_exp {α : Type} (O : EOps α) (x : α) (e : Int) (zero one : α) : Res α := do
  let z ← O.eq x zero
  if z then
    if e ≤ 0 then throw else ok zero
  else if e = 0 then ok one
  else if e < 0 then do
    let ne ← ineg e
    if e = ne then throw
    else do
      let xp ← O.div one x
      sqMulLoop O.mul 32 one xp ne.toNat
  else sqMulLoop O.mul 32 one x e.toNat

/-- `emit` for one argument, `/repo/spffl/cli_parser/cmd_line_ops.h:342-352,376-379,429-438`. -/
def scalarUn {α : Type} (O : EOps α) : Op → Atom α → Res (Atom α)
  | .uminus, .val a => do
    let c ← O.neg a
    ok (.val c)
  | _, _ => throw

/-- The value of a comparison, stored in an `int`. -/
def ofBool {α : Type} (b : Bool) : Atom α := .int (if b then 1 else 0)

/-- `emit` for two arguments, `/repo/spffl/cli_parser/cmd_line_ops.h:342-438`. -/
def scalarBin {α : Type} (O : EOps α) (zero one : α) : Op → Atom α → Atom α → Res (Atom α)
  | .plus, .val a, .val b => do let c ← O.add a b; ok (.val c)
  | .minus, .val a, .val b => do let c ← O.sub a b; ok (.val c)
  | .mul, .val a, .val b => do let c ← O.mul a b; ok (.val c)
  | .div, .val a, .val b => do let c ← O.div a b; ok (.val c)
  | .mod, .val a, .val b => do let c ← O.mod a b; ok (.val c)
  | .exp, .val a, .int n => do let c ← clo_exp O a n zero one; ok (.val c)
  | .eq, .val a, .val b => do let c ← O.eq a b; ok (ofBool c)
  | .ne, .val a, .val b => do let c ← O.ne a b; ok (ofBool c)
  | .lt, .val a, .val b => do let c ← O.lt a b; ok (ofBool c)
  | .le, .val a, .val b => do let c ← O.le a b; ok (ofBool c)
  | .gt, .val a, .val b => do let c ← O.gt a b; ok (ofBool c)
  | .ge, .val a, .val b => do let c ← O.ge a b; ok (ofBool c)
  | _, _, _ => throw

/-- The cases of the loops of `T`, `C` and `Q`, `/repo/spffl/cli_parser/cmd_line_ops.h:551-553,598-601,623-624`. -/
def scalarMul : Op → Bool
  | .mul | .div | .mod => true
  | _ => false

def scalarOrd : Op → Bool
  | .lt | .le | .gt | .ge => true
  | _ => false

def isEq : Op → Bool
  | .eq | .ne => true
  | _ => false

/-- The scalar evaluator: `T` loops over `* / %`, `C` over the four orderings, `Q` over `== !=`. -/
def scalar {α : Type} (O : EOps α) (zero one : α) (scan : String → Res α) (scanI : String → Res Int) :
    Dialect (Atom α) where
  cls := scalarCls
  scan s := do let a ← scan s; ok (.val a)
  scanI s := do let n ← scanI s; ok (.int n)
  pre _ := false
  mul := scalarMul
  ord := scalarOrd
  eqs := isEq
  un := scalarUn O
  bin := scalarBin O zero one

/-! ### The vector evaluator -/

/-- `vecatom_t`, `/repo/spffl/cli_parser/cmd_line_vector_ops.h:30-35`, and `matatom_t`,
`cmd_line_matrix_ops.h:30-35`: `M` is the type of vectors or of matrices. -/
inductive MAtom (M α : Type)
  | mat (m : M) | scalar (a : α) | int (n : Int)
deriving DecidableEq, Repr

/-- The operators of `tvector` that `emit` uses; `exp` is `/repo/spffl/containers/tvector.h:347-353`. -/
structure VOps (M : Type) where
  neg : M → Res M
  add : M → M → Res M
  sub : M → M → Res M
  mul : M → M → Res M
  exp : M → Int → Res M
  eq : M → M → Res Bool
  ne : M → M → Res Bool

/-- The chain of `strcmp` of `veclexan`, `/repo/spffl/cli_parser/cmd_line_vector_ops.h:155-187`. -/
def vecCls (s : String) : Option Sym :=
  if s = "+" then some (.op .plus)
  else if s = "-" then some (.op .minus)
  else if s = "*" then some (.op .mul)
  else if s = "." then some (.op .mul)
  else if s = "^" then some (.op .exp)
  else if s = "==" then some (.op .eq)
  else if s = "!=" then some (.op .ne)
  else if s = "/=" then some (.op .ne)
  else if s = "(" then some .lparen
  else if s = ")" then some .rparen
  else if s = "[" then some .lparen
  else if s = "]" then some .rparen
  else none

/-- `emit` for one argument, `/repo/spffl/cli_parser/cmd_line_vector_ops.h:290-299,331-334,362-379`. -/
def vecUn {M α : Type} (O : VOps M) : Op → MAtom M α → Res (MAtom M α)
  | .uminus, .mat a => do let c ← O.neg a; ok (.mat c)
  | _, _ => throw

/-- `emit` for two arguments, `/repo/spffl/cli_parser/cmd_line_vector_ops.h:290-379`. -/
def vecBin {M α : Type} (O : VOps M) : Op → MAtom M α → MAtom M α → Res (MAtom M α)
  | .plus, .mat a, .mat b => do let c ← O.add a b; ok (.mat c)
  | .minus, .mat a, .mat b => do let c ← O.sub a b; ok (.mat c)
  | .mul, .mat a, .mat b => do let c ← O.mul a b; ok (.mat c)
  | .exp, .mat a, .int n => do let c ← O.exp a n; ok (.mat c)
  | .eq, .mat a, .mat b => do let c ← O.eq a b; ok (.int (if c then 1 else 0))
  | .ne, .mat a, .mat b => do let c ← O.ne a b; ok (.int (if c then 1 else 0))
  | _, _, _ => throw

/-- The case of the loop of `T`, `/repo/spffl/cli_parser/cmd_line_vector_ops.h:480`,
`cmd_line_matrix_ops.h:622`. -/
def isMul : Op → Bool
  | .mul => true
  | _ => false

/-- The vector evaluator: no `/`, no `%`, no orderings.  `scan` is `bracket_in`; an argument without `[` throws, as
reading a file is not implemented there. -/
def vector {M α : Type} (O : VOps M) (scan : String → Res M) (scanI : String → Res Int) : Dialect (MAtom M α) where
  cls := vecCls
  scan s := if '[' ∈ s.toList then do let a ← scan s; ok (.mat a) else throw
  scanI s := do let n ← scanI s; ok (.int n)
  pre _ := false
  mul := isMul
  ord _ := false
  eqs := isEq
  un := vecUn O
  bin := vecBin O

/-! ### The matrix evaluator -/

/-- The operators of `tmatrix` that `emit` uses.  The methods that return a flag and fill a matrix return an option. -/
structure MOps (M α : Type) extends VOps M where
  expM : M → Int → Res (Option M)
  inverse : M → Res (Option M)
  check_inverse : M → M → Res Unit
  kerbas : M → Res (Option M)
  check_kerbas : M → M → Res Unit
  rr : M → Res M
  rech : M → Res M
  flip_horiz : M → Res M
  flip_horiz_vert : M → Res M
  rrnz : M → Res (Option M)
  rechnz : M → Res (Option M)
  transpose : M → Res M
  det : M → Res α
  rank : M → Res Int

/-- The chain of `strcmp` of `matlexan`, `/repo/spffl/cli_parser/cmd_line_matrix_ops.h:196-250`. -/
def matCls (s : String) : Option Sym :=
  if s = "+" then some (.op .plus)
  else if s = "-" then some (.op .minus)
  else if s = "*" then some (.op .mul)
  else if s = "." then some (.op .mul)
  else if s = "^" then some (.op .exp)
  else if s = "==" then some (.op .eq)
  else if s = "!=" then some (.op .ne)
  else if s = "/=" then some (.op .ne)
  else if s = "rank" then some (.op .rank)
  else if s = "det" then some (.op .det)
  else if s = "inv" then some (.op .inv)
  else if s = "kerbas" then some (.op .kerbas)
  else if s = "rr" then some (.op .rr)
  else if s = "rech" then some (.op .rech)
  else if s = "rechr" then some (.op .rechr)
  else if s = "rrnz" then some (.op .rrnz)
  else if s = "rechnz" then some (.op .rechnz)
  else if s = "transpose" then some (.op .transpose)
  else if s = "(" then some .lparen
  else if s = ")" then some .rparen
  else if s = "[" then some .lparen
  else if s = "]" then some .rparen
  else none

/-- A method that reports failure: the code throws. -/
def orThrow {M : Type} : Option M → Res M
  | some m => ok m
  | none => throw

/-- `emit` for one argument, `/repo/spffl/cli_parser/cmd_line_matrix_ops.h:349-505`. -/
def matUn {M α : Type} (O : MOps M α) : Op → MAtom M α → Res (MAtom M α)
  | .uminus, .mat a => do let c ← O.neg a; ok (.mat c)
  | .inv, .mat a => do
    let r ← O.inverse a
    let c ← orThrow r
    O.check_inverse a c
    ok (.mat c)
  | .transpose, .mat a => do let c ← O.transpose a; ok (.mat c)
  | .kerbas, .mat a => do
    let r ← O.kerbas a
    let c ← orThrow r
    O.check_kerbas a c
    ok (.mat c)
  | .rr, .mat a => do let c ← O.rr a; ok (.mat c)
  | .rech, .mat a => do let c ← O.rech a; ok (.mat c)
  | .rechr, .mat a => do
    let c ← O.flip_horiz a
    let c ← O.rech c
    let c ← O.flip_horiz_vert c
    ok (.mat c)
  | .rrnz, .mat a => do
    let r ← O.rrnz a
    let c ← orThrow r
    ok (.mat c)
  | .rechnz, .mat a => do
    let r ← O.rechnz a
    let c ← orThrow r
    ok (.mat c)
  | .det, .mat a => do let c ← O.det a; ok (.scalar c)
  | .rank, .mat a => do let c ← O.rank a; ok (.int c)
  | _, _ => throw

/-- `emit` for two arguments, `/repo/spffl/cli_parser/cmd_line_matrix_ops.h:349-505`. -/
def matBin {M α : Type} (O : MOps M α) : Op → MAtom M α → MAtom M α → Res (MAtom M α)
  | .plus, .mat a, .mat b => do let c ← O.add a b; ok (.mat c)
  | .minus, .mat a, .mat b => do let c ← O.sub a b; ok (.mat c)
  | .mul, .mat a, .mat b => do let c ← O.mul a b; ok (.mat c)
  | .exp, .mat a, .int n => do
    let r ← O.expM a n
    let c ← orThrow r
    ok (.mat c)
  | .eq, .mat a, .mat b => do let c ← O.eq a b; ok (.int (if c then 1 else 0))
  | .ne, .mat a, .mat b => do let c ← O.ne a b; ok (.int (if c then 1 else 0))
  | _, _, _ => throw

/-- The cases of `F` in the matrix evaluator, `/repo/spffl/cli_parser/cmd_line_matrix_ops.h:592-606`. -/
def matPre : Op → Bool
  | .rank | .inv | .det | .kerbas | .rr | .rech | .rechr | .rrnz | .rechnz | .transpose => true
  | _ => false

/-- The matrix evaluator.  `scan` is `bracket_in` where the argument holds a `[`, and `load_from_file` otherwise. -/
def matrix {M α : Type} (O : MOps M α) (scan : String → Res M) (scanI : String → Res Int) : Dialect (MAtom M α) where
  cls := matCls
  scan s := do let a ← scan s; ok (.mat a)
  scanI s := do let n ← scanI s; ok (.int n)
  pre := matPre
  mul := isMul
  ord _ := false
  eqs := isEq
  un := matUn O
  bin := matBin O

end Spffl.Expr
