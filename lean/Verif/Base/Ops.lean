/-
Element operations used by the C++ class templates (tvector, tmatrix, tfacinfo) and by the
coefficient-array polynomials.  A template instantiated at `element_type` is modelled over a record of
the operations it calls on `element_type`.
-/
import Verif.Base.Res

namespace Spffl

/-- The overloaded operators of an `element_type`. -/
structure EltOps (α : Type) where
  add : α → α → Res α
  sub : α → α → Res α
  mul : α → α → Res α
  div : α → α → Res α
  neg : α → Res α
  eq : α → α → Res Bool
  lt : α → α → Res Bool

/-- `e = (unsigned) e >> 1` square-and-multiply, as written in tfacinfo.h:294-300, tmatrix.h, and the
`exp` methods: multiply when the low bit is set, then always square.  `e` is the 32-bit pattern. -/
def sqMulLoop {α : Type} (mul : α → α → Res α) : Nat → α → α → Nat → Res α
  | 0, rv, _, e => if e = 0 then .ok rv else .timeout
  | k + 1, rv, xp, e =>
    if e = 0 then .ok rv
    else do
      let rv ← step rv xp e
      let xp ← mul xp xp
      sqMulLoop mul k rv xp (e / 2)
where
  /-- `if (e & 1) rv *= xp;` -/
  step (rv xp : α) (e : Nat) : Res α := if e % 2 = 1 then mul rv xp else .ok rv

/-- `xs[i] = <expression>` -/
def store {α : Type u} (xs : List α) (i : Nat) (r : Res α) : Res (List α) := do
  let v ← r
  wr xs i v

end Spffl
