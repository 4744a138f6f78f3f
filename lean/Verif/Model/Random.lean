/-
Model of spffl/random.  The bit source is a parameter: `src k` is the word returned by the k-th call of
`get_random_int` (int_random.cpp:30-62, either variant) and the position in the sequence is passed along.
`generator` is the variant without /dev/urandom.
-/
import Verif.Model.CMod
import Verif.Model.Psdes

namespace Spffl
open Res

namespace Random

abbrev Src := Nat → BitVec 32

/-- int_random.cpp:63 with psdes.cpp:19-24 and 66-78, started in the state `s`: the low word of the hash of the
k-th state. -/
def generator (s : W32 × W32) : Src := fun k => (run32 k s)

/-- intmod_random.cpp:14-21.  The word is converted to `int`. -/
def intmod_random (src : Src) (m : Int) (pos : Nat) : Res (IntMod × Nat) :=
  if m < 2 then throw
  else do
    let a ← IntMod.mk' (src pos).toInt m
    ok (a, pos + 1)

/-- f2_poly_random.cpp:24-27: one bit. -/
def bitStep (src : Src) (i : Nat) (s : F2P × Nat) : Res (F2P × Nat) :=
  if (src s.2 >>> 17) &&& 1#32 ≠ 0#32 then do
    let rv ← F2P.set_bit s.1 i
    ok (rv, s.2 + 1)
  else ok (s.1, s.2 + 1)

/-- f2_poly_random.cpp:14-30. -/
def f2_poly_random (src : Src) (deg : Int) (pos : Nat) : Res (F2P × Nat) :=
  if deg < 0 then throw
  else do
    let rv ← F2P.set_bit F2P.zero deg
    forDown deg.toNat 0 (rv, pos) (bitStep src)

/-- f2_polymod_random.cpp:15-26. -/
def f2_polymod_random (src : Src) (m : F2P) (pos : Nat) : Res (F2Mod × Nat) := do
  let deg ← F2P.find_degree m
  if deg < 1 then throw
  else do
    let s ← f2_poly_random src deg pos
    let a ← F2Mod.mk' s.1 m
    ok (a, s.2)

section Generic
variable {α : Type}

/-- fp_poly_random.cpp:25-27 and f2n_poly_random.cpp:28-30: a leading zero is replaced by one. -/
def leadFix (O : CoefOps α) (zero one : α) (deg i : Nat) (c : α) : Res α :=
  if i = deg then do
    let z ← O.eq c zero
    if z then ok one else ok c
  else ok c

/-- fp_poly_random.cpp:21-30 and f2n_poly_random.cpp:26-33; `draw` is `intmod_random` or `f2_polymod_random`. -/
def poly_random (O : CoefOps α) (zero one : α) (draw : Nat → Res (α × Nat)) (deg : Nat) (pos : Nat) :
    Res (CPoly α × Nat) := do
  let rv ← CPoly.const O zero
  forDown (deg + 1) 0 (rv, pos) fun i s => do
    let c ← draw s.2
    let d ← leadFix O zero one deg i c.1
    let rv ← CPoly.set_coeff O s.1 i d
    ok (rv, c.2)

end Generic

/-- fp_poly_random.cpp:14-32. -/
def fp_poly_random (src : Src) (p deg : Int) (pos : Nat) : Res (CPoly IntMod × Nat) :=
  if deg < 0 then throw
  else do
    let zero ← IntMod.mk' 0 p
    let one ← IntMod.mk' 1 p
    poly_random IntMod.cops zero one (intmod_random src p) deg.toNat pos

/-- f2n_poly_random.cpp:14-35. -/
def f2n_poly_random (src : Src) (m : F2P) (deg : Int) (pos : Nat) : Res (CPoly F2Mod × Nat) :=
  if deg < 0 then throw
  else do
    let zero ← F2Mod.mk' F2P.zero m
    let one ← F2Mod.mk' F2P.one m
    poly_random F2Mod.cops zero one (f2_polymod_random src m) deg.toNat pos

/-- fp_polymod_random.cpp:14-25.  `find_degree` is the degree member (fp_poly_t.cpp), `get_characteristic` the
modulus of coefficient 0 (fp_poly_t.cpp:123-125). -/
def fp_polymod_random (src : Src) (m : CPoly IntMod) (pos : Nat) : Res (CMod IntMod × Nat) :=
  if m.degree < 1 then throw
  else do
    let c0 ← rd m.coeffs 0
    let s ← fp_poly_random src c0.modulus m.degree pos
    let a ← CMod.mk' IntMod.cops s.1 m
    ok (a, s.2)

/-- f2n_polymod_random.cpp:13-19. -/
def f2n_polymod_random (src : Src) (im : F2P) (om : CPoly F2Mod) (pos : Nat) : Res (CMod F2Mod × Nat) := do
  let s ← f2n_poly_random src im om.degree pos
  let a ← CMod.mk' F2Mod.cops s.1 om
  ok (a, s.2)

end Random
end Spffl
