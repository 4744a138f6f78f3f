/-
Model of spffl/base/tokenize.cpp and spffl/cli_parser/cmd_interp.cpp.

`char` is a byte; a C string inside a buffer ends at the first zero byte; a `char *` into a buffer is an offset.
`argv` of the tokenizer is the caller's array of pointers, here of offsets into the line.

Command interpolation: `argv` is a list of C strings, each a byte list without its terminator.  The shell is a
parameter `popen`: the whole output of a command line, or `none` if the pipe cannot be opened.  Heap buffers are
the string they hold plus a check that the string and its terminator fit into the allocated size (`ub` if not);
`malloc` does not fail.  The three copy loops building the new `argv` (lines 175-183) are list concatenation
behind the same check.
-/
import Verif.Base.Res

namespace Spffl
open Res

abbrev Byte := BitVec 8

namespace Tok

/-- tokenize.cpp:35-40, 80-85: is `c` among the characters of the C string `seps`? -/
def sepLoop (c : Byte) (seps : List Byte) : Nat → Nat → Res Bool
  | 0, _ => timeout
  | k + 1, j => do
    let s ← rd seps j
    if s = 0 then ok false
    else if c = s then ok true
    else sepLoop c seps k (j + 1)

def isSep (seps : List Byte) (c : Byte) : Res Bool := sepLoop c seps seps.length 0

structure St where
  buf : List Byte
  inside : Bool
  argc : Int
  argv : List Nat

/-- tokenize.cpp:42-59 for one character; `some` in the result: the loop is left by `break`. -/
def tokStep (max : Int) (i : Nat) (sep : Bool) (s : St) : Res (St × Bool) :=
  if sep then
    if s.inside then do
      let b ← wr s.buf i 0
      ok (⟨b, false, s.argc, s.argv⟩, false)
    else ok (s, false)
  else if !s.inside then
    if max ≤ s.argc then ok (⟨s.buf, true, s.argc, s.argv⟩, true)
    else do
      let v ← wr s.argv s.argc.toNat i
      let n ← iadd s.argc 1
      ok (⟨s.buf, true, n, v⟩, false)
  else ok (s, false)

/-- tokenize.cpp:33-60: the loop from position `i`; also returns the final position. -/
def tokLoop (seps : List Byte) (max : Int) : Nat → Nat → St → Res (St × Nat)
  | 0, _, _ => timeout
  | k + 1, i, s => do
    let c ← rd s.buf i
    if c = 0 then ok (s, i)
    else do
      let sep ← isSep seps c
      let r ← tokStep max i sep s
      if r.2 then ok (r.1, i) else tokLoop seps max k (i + 1) r.1

/-- tokenize.cpp:26-67: `argc`, the pointers and the modified line. -/
def tokenize (line seps : List Byte) (argv : List Nat) (max : Int) : Res (Int × List Nat × List Byte) := do
  let r ← tokLoop seps max line.length 0 ⟨line, false, 0, argv⟩
  if r.1.inside then do
    let b ← wr r.1.buf r.2 0
    ok (r.1.argc, r.1.argv, b)
  else ok (r.1.argc, r.1.argv, r.1.buf)

/-- tokenize.cpp:78-98. -/
def countLoop (line seps : List Byte) : Nat → Nat → Bool → Int → Res Int
  | 0, _, _, _ => timeout
  | k + 1, i, inside, argc => do
    let c ← rd line i
    if c = 0 then ok argc
    else do
      let sep ← isSep seps c
      if sep then countLoop line seps k (i + 1) false argc
      else if !inside then do
        let n ← iadd argc 1
        countLoop line seps k (i + 1) true n
      else countLoop line seps k (i + 1) true argc

/-- tokenize.cpp:70-105. -/
def count_tokens (line seps : List Byte) : Res Int := countLoop line seps line.length 0 false 0

end Tok

namespace Cmd

/-- A C string without its terminator. -/
abbrev CStr := List Byte

def LBRK : CStr := [123]
def RBRK : CStr := [125]

/-- The C string starting at an offset of a buffer. -/
def cstr (buf : List Byte) (off : Nat) : CStr := (buf.drop off).takeWhile (· ≠ 0)

/-- cmd_interp.cpp:16-25. -/
def find_first_bracket (brkt : CStr) : List CStr → Nat → Option Nat
  | [], _ => none
  | a :: l, argi => if a = brkt then some argi else find_first_bracket brkt l (argi + 1)

/-- cmd_interp.cpp:28-48. -/
def check_balance : List CStr → Int → Res Bool
  | [], depth => if depth ≠ 0 then ok false else ok true
  | a :: l, depth =>
    if depth < 0 then ok false
    else if a = LBRK then do let d ← iadd depth 1; check_balance l d
    else if a = RBRK then do let d ← isub depth 1; check_balance l d
    else check_balance l depth

/-- cmd_interp.cpp:51-63: from index `righti` on; the result is the final value of `righti`. -/
def find_matching_right_bracket : List CStr → Nat → Int → Res Nat
  | [], righti, _ => ok righti
  | a :: l, righti, depth =>
    if a = RBRK then do
      let d ← isub depth 1
      if d = 0 then ok righti else find_matching_right_bracket l (righti + 1) d
    else if a = LBRK then do
      let d ← iadd depth 1
      find_matching_right_bracket l (righti + 1) d
    else find_matching_right_bracket l (righti + 1) depth

/-- cmd_interp.cpp:68-71: the allocated size. -/
def flatLen : List CStr → Int → Res Int
  | [], len => ok len
  | a :: l, len => do
    let n ← iadd len (a.length + 1)
    flatLen l n

/-- cmd_interp.cpp:78-82: `strcat` of each argument into `len` bytes. -/
def flatCat (len : Int) : List CStr → CStr → Res CStr
  | [], rv => ok rv
  | a :: l, rv =>
    if len < rv.length + 1 + a.length + 1 then ub else flatCat len l (rv ++ 32 :: a)

/-- cmd_interp.cpp:67-84. -/
def flatten (exename : CStr) (argv : List CStr) : Res CStr := do
  let len0 ← iadd exename.length 1
  let len ← flatLen argv len0
  if len < exename.length + 1 then ub else flatCat len argv exename

/-- One `fgets` with room for `n` characters: the characters read and the rest of the stream. -/
def fgets : Nat → List Byte → List Byte × List Byte
  | 0, r => ([], r)
  | _ + 1, [] => ([], [])
  | n + 1, c :: r => if c = 10 then ([c], r) else (c :: (fgets n r).1, (fgets n r).2)

/-- cmd_interp.cpp:102-106: the line as a C string, its newline cut off. -/
def chomp (line : List Byte) : Res CStr :=
  let l := line.takeWhile (· ≠ 0)
  if l = [] then ub
  else if l.getLast? = some 10 then ok l.dropLast else ok l

/-- cmd_interp.cpp:97-118. -/
def readLoop : Nat → List Byte → Option (CStr × Int) → Res (Option (CStr × Int))
  | 0, _, _ => timeout
  | k + 1, out, buf =>
    if out = [] then ok buf
    else do
      let l ← chomp (fgets 4095 out).1
      match buf with
      | none => do
        let size ← iadd l.length 1
        if size < l.length + 1 then ub else readLoop k (fgets 4095 out).2 (some (l, size))
      | some (b, totlen) => do
        let t ← iadd totlen l.length
        let size ← iadd t 2
        if size < b.length + 1 + l.length + 1 then ub
        else readLoop k (fgets 4095 out).2 (some (b ++ 32 :: l, size))

/-- cmd_interp.cpp:124-132: the output in one string to tokens; `" \t"` is the separator string. -/
def split (buf : CStr) : Res (List CStr) := do
  let argcout ← Tok.count_tokens (buf ++ [0]) [32, 9, 0]
  let r ← Tok.tokenize (buf ++ [0]) [32, 9, 0] (List.replicate argcout.toNat 0) argcout
  if r.1 ≠ argcout then throw
  else ok (r.2.1.map (cstr r.2.2))

/-- cmd_interp.cpp:87-134. -/
def replace (popen : CStr → Option (List Byte)) (exename : CStr) (argvin : List CStr) : Res (List CStr) := do
  let cmd ← flatten exename argvin
  match popen cmd with
  | none => throw
  | some out => do
    match ← readLoop (out.length + 1) out none with
    | none => split []
    | some (buf, _) => split buf

/-- cmd_interp.cpp:137-188; `none`: nothing was interpolated. -/
def cmd_interpolate_once (popen : CStr → Option (List Byte)) (exename : CStr) (argv : List CStr) :
    Res (Option (List CStr)) :=
  match find_first_bracket LBRK argv 0 with
  | none =>
    match find_first_bracket RBRK argv 0 with
    | some _ => throw
    | none => ok none
  | some lefti => do
    let b ← check_balance argv 0
    if !b then throw
    else do
      let righti ← find_matching_right_bracket (argv.drop (lefti + 1)) (lefti + 1) 1
      let argvout ← replace popen exename ((argv.drop (lefti + 1)).take (righti - lefti - 1))
      let n1 ← iadd lefti argvout.length
      let n2 ← iadd n1 argv.length
      let n3 ← isub n2 righti
      let newargc ← isub n3 1
      let newargv := argv.take lefti ++ argvout ++ argv.drop (righti + 1)
      if newargc ≠ newargv.length then ub else ok (some newargv)

/-- cmd_interp.cpp:191-196, at most `k` rounds. -/
def cmd_interpolate (popen : CStr → Option (List Byte)) (exename : CStr) :
    Nat → List CStr → Res (List CStr)
  | 0, _ => timeout
  | k + 1, argv => do
    match ← cmd_interpolate_once popen exename argv with
    | none => ok argv
    | some argv => cmd_interpolate popen exename k argv

end Cmd
end Spffl
