/-
Model of spffl/linalg/min_char_polys.cpp and of the Frobenius-orbit polynomials in
spffl/linalg/f2_linear_algebra.cpp:91-126.

`k` is the number of rounds allowed to the `do ... while` loops.  fp_polymod and f2npm are the same code over
fp_polymod_t and f2n_polymod_t; they are one definition here.
-/
import Verif.Model.LinAlg
import Verif.Model.CMod
import Verif.Model.F2Factor

namespace Spffl
open Res
namespace LinAlg

/-- min_char_polys.cpp:16-26, 29-40, 43-54: `step` is the power map, `ne` compares with the start. -/
def frobLoop {α : Type} (step : α → Res α) (ne : α → Res Bool) : Nat → Int → α → Res Int
  | 0, _, _ => timeout
  | k + 1, rv, ap => do
    let rv ← iadd rv 1
    let ap ← step ap
    let c ← ne ap
    if c then frobLoop step ne k rv ap else ok rv

/-! ### F2 -/

/-- min_char_polys.cpp:16-26. -/
def f2_frobenius_length (k : Nat) (a : F2Mod) : Res Int :=
  frobLoop (fun x => F2Mod.mul x x) (fun x => do let e ← F2Mod.eq x a; ok !e) k 0 a

/-- min_char_polys.cpp:99-105: column `j` holds the bits of `a^j`. -/
def f2Powers (a : F2Mod) (n l : Nat) (A : BM) (ap : F2Mod) : Res (BM × F2Mod) :=
  forUp 0 (l + 1) (A, ap) fun j s => do
    let A ← forUp 0 n s.1 fun i A => do
      let b ← F2P.bit_at s.2.residue i
      BM.cput A i j b
    let ap ← F2Mod.mul s.2 a
    ok (A, ap)

/-- min_char_polys.cpp:118-123. -/
def f2FromRow (B : BM) (l : Nat) : Res F2P :=
  forUp 0 (l + 1) F2P.zero fun j p => do
    let v ← BM.row B 0
    let b ← BV.get v j
    if b then F2P.set_bit p j else ok p

/-- min_char_polys.cpp:91-125. -/
def f2_minimal_polynomial (tm : TrimMask) (k : Nat) (a : F2Mod) : Res F2P := do
  let ap ← F2Mod.prime_subfield_element 1 a.modulus
  let n ← F2P.find_degree a.modulus
  let l ← f2_frobenius_length k a
  let l1 ← iadd l 1
  let A ← BM.alloc n l1
  let s ← f2Powers a n l.toNat A ap
  let B ← BM.get_kernel_basis tm s.1
  match B with
  | none => throw
  | some B => do
    let r ← BM.get_rank_rr B
    if r ≠ 1 then throw else f2FromRow B l.toNat

/-- min_char_polys.cpp:203-211. -/
def f2_characteristic_polynomial (tm : TrimMask) (k : Nat) (a : F2Mod) : Res F2P := do
  let mp ← f2_minimal_polynomial tm k a
  let n ← F2P.find_degree a.modulus
  let l ← f2_frobenius_length k a
  let e ← idiv n l
  F2P.exp mp e

/-- f2_linear_algebra.cpp:101-108: `i` rounds left. -/
def orbitLoop (a one : F2Mod) (do_min : Bool) : Nat → CPoly F2Mod → F2Mod → Res (CPoly F2Mod)
  | 0, rv, _ => ok rv
  | i + 1, rv, ap => do
    let factor ← CPoly.linear F2Mod.cops one ap
    let rv ← CPoly.mul F2Mod.cops rv factor
    let ap ← F2Mod.mul ap ap
    if do_min then do
      let e ← F2Mod.eq ap a
      if e then ok rv else orbitLoop a one do_min i rv ap
    else orbitLoop a one do_min i rv ap

/-- f2_linear_algebra.cpp:91-112. -/
def f2_char_or_min_poly (a : F2Mod) (do_min : Bool) : Res (CPoly F2Mod) := do
  let d ← F2P.find_degree a.modulus
  let one ← F2Mod.mk' (F2P.ofInt 1) a.modulus
  let rv ← CPoly.const F2Mod.cops one
  orbitLoop a one do_min d rv a

/-- f2_linear_algebra.cpp:115-118 and 121-124. -/
def f2_polymod_char_poly (a : F2Mod) : Res (CPoly F2Mod) := f2_char_or_min_poly a false
def f2_polymod_min_poly (a : F2Mod) : Res (CPoly F2Mod) := f2_char_or_min_poly a true

/-! ### Fp and F2^n -/

section
variable {α : Type} (O : CoefOps α)

/-- min_char_polys.cpp:29-40 and 43-54; `q` is the exponent. -/
def frobenius_length (q : Int) (k : Nat) (a : CMod α) : Res Int :=
  frobLoop (fun x => CMod.exp O x q) (fun x => do let e ← CMod.eq O x a; ok !e) k 0 a

/-- min_char_polys.cpp:138-144, 175-181. -/
def powerCols (a : CMod α) (n l : Nat) (A : TMat α) (ap : CMod α) : Res (TMat α × CMod α) :=
  forUp 0 (l + 1) (A, ap) fun j s => do
    let A ← forUp 0 n s.1 fun i A => A.cput i j (CPoly.get_coeff O s.2.residue i)
    let ap ← CMod.mul O s.2 a
    ok (A, ap)

/-- min_char_polys.cpp:157-160, 194-197; `d` is the coefficient of a default-constructed polynomial. -/
def fromRow (d : α) (B : TMat α) (l : Nat) : Res (CPoly α) :=
  forUp 0 (l + 1) ⟨0, [d]⟩ fun j p => do
    let c ← B.cget 0 j
    CPoly.set_coeff O p j c

/-- min_char_polys.cpp:127-162, 165-200. -/
def minimal_polynomial (d : α) (q : Int) (zero one : α) (k : Nat) (a : CMod α) : Res (CPoly α) := do
  let ap ← CMod.psub O a 1
  let n := a.modulus.degree
  let l ← frobenius_length O q k a
  let l1 ← iadd l 1
  let A ← TMat.fill zero n l1
  let s ← powerCols O a n l.toNat A ap
  let B ← TMat.get_kernel_basis O.tops s.1 zero one
  match B with
  | none => throw
  | some B => do
    let r ← TMat.get_rank_rr O.tops B
    if r ≠ 1 then throw else fromRow O d B l.toNat

/-- min_char_polys.cpp:214-222, 225-233. -/
def characteristic_polynomial (d : α) (q : Int) (zero one : α) (k : Nat) (a : CMod α) : Res (CPoly α) := do
  let mp ← minimal_polynomial O d q zero one k a
  let l ← frobenius_length O q k a
  let e ← idiv a.modulus.degree l
  CPoly.exp O mp e

end

/-- min_char_polys.cpp:43-54; `get_characteristic` is fp_polymod_t.cpp:57-59. -/
def fp_frobenius_length (k : Nat) (a : CMod IntMod) : Res Int := do
  let c ← rd a.residue.coeffs 0
  frobenius_length IntMod.cops c.modulus k a

/-- min_char_polys.cpp:165-200. -/
def fp_minimal_polynomial (k : Nat) (a : CMod IntMod) : Res (CPoly IntMod) := do
  let c ← rd a.residue.coeffs 0
  let zero ← IntMod.mk' 0 c.modulus
  let one ← IntMod.mk' 1 c.modulus
  minimal_polynomial IntMod.cops ⟨0, 1⟩ c.modulus zero one k a

/-- min_char_polys.cpp:225-233. -/
def fp_characteristic_polynomial (k : Nat) (a : CMod IntMod) : Res (CPoly IntMod) := do
  let c ← rd a.residue.coeffs 0
  let zero ← IntMod.mk' 0 c.modulus
  let one ← IntMod.mk' 1 c.modulus
  characteristic_polynomial IntMod.cops ⟨0, 1⟩ c.modulus zero one k a

/-- min_char_polys.cpp:31: the size of the coefficient field. -/
def f2n_q (a : CMod F2Mod) : Res Int := do
  let c ← CPoly.get_coeff F2Mod.cops a.residue 0
  let d ← F2P.find_degree c.modulus
  ishl 1 d

/-- min_char_polys.cpp:29-40. -/
def f2npm_froblen (k : Nat) (a : CMod F2Mod) : Res Int := do
  let q ← f2n_q a
  frobenius_length F2Mod.cops q k a

/-- min_char_polys.cpp:127-162. -/
def f2npm_min_poly (k : Nat) (a : CMod F2Mod) : Res (CPoly F2Mod) := do
  let c ← CPoly.get_coeff F2Mod.cops a.residue 0
  let zero ← F2Mod.prime_subfield_element 0 c.modulus
  let one ← F2Mod.prime_subfield_element 1 c.modulus
  let q ← f2n_q a
  minimal_polynomial F2Mod.cops ⟨F2P.zero, F2P.one⟩ q zero one k a

/-- min_char_polys.cpp:214-222. -/
def f2npm_char_poly (k : Nat) (a : CMod F2Mod) : Res (CPoly F2Mod) := do
  let c ← CPoly.get_coeff F2Mod.cops a.residue 0
  let zero ← F2Mod.prime_subfield_element 0 c.modulus
  let one ← F2Mod.prime_subfield_element 1 c.modulus
  let q ← f2n_q a
  characteristic_polynomial F2Mod.cops ⟨F2P.zero, F2P.one⟩ q zero one k a

end LinAlg
end Spffl
