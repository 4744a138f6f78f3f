/-
Model of spffl/linalg: vectors from base representations, characteristic polynomials and companion matrices over
F2, Fp and F2^n.

fp_linear_algebra.cpp and f2_polymod_linear_algebra.cpp contain the same two functions over intmod_t and
f2_polymod_t; they are one definition here, over the coefficient operations.  There `intmod_t(v, p)` with
`p = A[0][0].get_modulus()` (`f2_polymod_t(f2_poly_t(v), m)` likewise) is `prime_subfield_element(v)` of that entry.
-/
import Verif.Model.EDet

namespace Spffl
open Res

/-- spffl/bits/bit_t.h: the `uint8_t` member `residue`. -/
structure BitT where
  residue : BitVec 8
deriving DecidableEq, Repr

namespace BitT

/-- bit_t.h:29 -/
def ofInt (a : Int) : BitT := ⟨if a % 2 = 0 then 0#8 else 1#8⟩

/-- bit_t.h:46-77 and 126-133; default constructor 33. -/
def tops : TOps BitT where
  add := fun a b => ok ⟨a.residue ^^^ b.residue⟩
  sub := fun a b => ok ⟨a.residue ^^^ b.residue⟩
  mul := fun a b => ok ⟨a.residue &&& b.residue⟩
  div := fun a b => if b.residue = 0 then throw else ok a
  neg := fun a => ok a
  eq := fun a b => ok (a.residue == b.residue)
  lt := fun a b => ok (decide (a.residue < b.residue))
  dflt := ⟨0⟩

/-- bit_t.h:40-43: assignment of an int, converted to `uint8_t`. -/
def assignInt (e : Int) : BitT := ⟨BitVec.ofInt 8 e⟩

/-- bit_t.h:65 -/
def exp (a : BitT) (_power : Int) : Res BitT := ok a

/-- bit_t.h:76-83 -/
def mod (_a b : BitT) : Res BitT := if b.residue = 0 then throw else ok (ofInt 0)

end BitT

namespace TMat
variable {α : Type}

/-- `m[i][j]`, read (tmatrix.h:390-398, tvector.h:227-235) -/
def cget (A : TMat α) (i j : Nat) : Res α := do
  let r ← A.row i
  TVec.get r j

/-- tmatrix.h:320-334: `m = scalar` on a matrix that has rows. -/
def assignScalar (A : TMat α) (e : α) : Res (TMat α) :=
  forUp 0 A.num_rows A fun i s => forUp 0 A.num_cols s fun j s => put s i j (ok e)

end TMat

namespace LinAlg

/-- f2_linear_algebra.cpp:14-21. `base_rep & 1` and `base_rep >>= 1` on a two's complement `int`. -/
def f2_vector_from_base_rep (base_rep len : Int) : Res (TVec BitT) := do
  let v ← TVec.alloc BitT.tops len
  let r ← forDown len.toNat 0 (v, base_rep) fun i s => do
    let v ← TVec.put s.1 i (ok (BitT.ofInt (s.2 % 2)))
    ok (v, s.2 / 2)
  ok r.1

/-- f2_linear_algebra.cpp:24-34. -/
def f2_matrix_from_base_rep (base_rep nr nc : Int) : Res (TMat BitT) := do
  let A ← TMat.alloc BitT.tops nr nc
  let r ← forDown nr.toNat 0 (A, base_rep) fun i s => forDown nc.toNat 0 s fun j s => do
    let A ← TMat.cput s.1 i j (ok (BitT.ofInt (s.2 % 2)))
    ok (A, s.2 / 2)
  ok r.1

/-- fp_linear_algebra.cpp:15-25. -/
def fp_vector_from_base_rep (base_rep p len : Int) : Res (TVec IntMod) := do
  let v ← TVec.alloc IntMod.cops.tops len
  let r ← forDown len.toNat 0 (v, base_rep) fun i s => do
    let d ← imod s.2 p
    let v ← TVec.put s.1 i (IntMod.mk' d p)
    let b ← idiv s.2 p
    ok (v, b)
  ok r.1

/-- f2_polymod_linear_algebra.cpp:259-274. -/
def ft_vector_from_base_rep (base_rep : Int) (m : F2P) (len : Int) : Res (TVec F2Mod) := do
  let v ← TVec.alloc F2Mod.cops.tops len
  let d ← F2P.find_degree m
  let t ← ishl 1 d
  let r ← forDown len.toNat 0 (v, base_rep) fun i s => do
    let e ← imod s.2 t
    let v ← TVec.put s.1 i (F2Mod.mk' (F2P.from_base_rep (BitVec.ofInt 64 e)) m)
    let b ← idiv s.2 t
    ok (v, b)
  ok r.1

/-- f2_linear_algebra.cpp:48-55: one entry of `A - lambda I`. -/
def f2CharEntry (A : TMat BitT) (i j : Nat) (M : TMat F2P) : Res (TMat F2P) := do
  let M ← M.cput i j (do
    let a ← A.cget i j
    ok (F2P.ofInt a.residue.toNat))
  if i = j then M.cput i j (do
    let x ← M.cget i j
    F2P.sub x (F2P.ofInt2 1 0))
  else ok M

/-- f2_linear_algebra.cpp:37-62. -/
def f2_char_poly (A : TMat BitT) : Res F2P :=
  if !A.is_square then throw
  else do
    let n := A.num_rows
    let M ← TMat.alloc F2P.edops.toTOps n n
    let M ← forUp 0 n M fun i M => forUp 0 n M fun j M => f2CharEntry A i j M
    TMat.ed_det F2P.edops M

/-- f2_linear_algebra.cpp:65-90. -/
def f2_companion_matrix (chpol : F2P) : Res (TMat BitT) := do
  let n ← F2P.find_degree chpol
  let rv ← TMat.alloc BitT.tops n n
  let rv ← rv.assignScalar (BitT.ofInt 0)
  let rv ← forUp 1 n rv fun i rv => rv.cput i (i - 1) (ok (BitT.ofInt 1))
  forUp 0 n rv fun i rv => do
    let b ← F2P.bit_at chpol i
    if b then rv.cput 0 (n - 1 - i) (ok (BitT.ofInt 1)) else ok rv

variable {α : Type} (O : CoefOps α)

/-- fp_linear_algebra.cpp:47-52, f2_polymod_linear_algebra.cpp:39-44: one entry of `t I - A`. -/
def charEntry (t : CPoly α) (A : TMat α) (i j : Nat) (M : TMat (CPoly α)) : Res (TMat (CPoly α)) := do
  let M ← M.cput i j (do
    let a ← A.cget i j
    let c ← CPoly.const O a
    CPoly.neg O c)
  if i = j then M.cput i j (do
    let x ← M.cget i j
    CPoly.add O x t)
  else ok M

/-- fp_linear_algebra.cpp:28-57 and f2_polymod_linear_algebra.cpp:21-49.  `d` is the coefficient of a default
constructed polynomial. -/
def char_poly (d : α) (A : TMat α) : Res (CPoly α) :=
  if !A.is_square then throw
  else do
    let n := A.num_rows
    let M ← TMat.alloc (CPoly.edops O d).toTOps n n
    let a ← A.cget 0 0
    let c1 ← O.psub a 1
    let c0 ← O.psub a 0
    let t ← CPoly.linear O c1 c0
    let M ← forUp 0 n M fun i M => forUp 0 n M fun j M => charEntry O t A i j M
    TMat.ed_det (CPoly.edops O d) M

/-- fp_linear_algebra.cpp:60-80 and f2_polymod_linear_algebra.cpp:52-79. -/
def companion_matrix (chpol : CPoly α) : Res (TMat α) := do
  let n := chpol.degree
  let rv ← TMat.alloc O.tops n n
  let c ← rd chpol.coeffs 0
  let zero ← O.psub c 0
  let rv ← rv.assignScalar zero
  let rv ← forUp 1 n rv fun i rv => rv.cput i (i - 1) (O.psub c 1)
  forUp 0 n rv fun i rv => rv.cput 0 (n - 1 - i) (do
    let x ← CPoly.get_coeff O chpol i
    O.neg x)

/-- fp_poly_t.cpp:16-21: the default polynomial holds `intmod_t(0, 1)`. -/
def fp_char_poly (A : TMat IntMod) : Res (CPoly IntMod) := char_poly IntMod.cops ⟨0, 1⟩ A

def fp_companion_matrix (chpol : CPoly IntMod) : Res (TMat IntMod) := companion_matrix IntMod.cops chpol

/-- f2n_poly_t.cpp:16-21 -/
def f2n_char_poly (A : TMat F2Mod) : Res (CPoly F2Mod) := char_poly F2Mod.cops ⟨F2P.zero, F2P.one⟩ A

def f2np_companion_matrix (chpol : CPoly F2Mod) : Res (TMat F2Mod) := companion_matrix F2Mod.cops chpol

end LinAlg
end Spffl
