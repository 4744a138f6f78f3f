/-
Model of pre-cmake/examples/crt2.cpp from the parsed arguments on: the table of the isomorphism of Z/mn with Z/m x Z/n.
-/
import Verif.Model.IntMod

namespace Spffl
open Res
namespace Crt2

/-- One line of the table: `x |--> (xm, xn) |--> y ck d`; the residues are printed. -/
structure Line where
  x : Int
  xm : Int
  xn : Int
  y : Int
  ck : Int
deriving DecidableEq, Repr

/-- crt2.cpp:24-42, the body of the loop; the cache is that of `intmod_t::recip`. -/
def line (c : IntMod.Cache) (m n mn x : Int) : Res (Line × IntMod.Cache) := do
  let xmn ← IntMod.mk' x mn
  let xm ← IntMod.mk' x m
  let xn ← IntMod.mk' x n
  let am ← IntMod.mk' xm.residue m
  let nm ← IntMod.mk' n m
  let anm ← IntMod.div c am nm
  let bn ← IntMod.mk' xn.residue n
  let m_n ← IntMod.mk' m n
  let bmn ← IntMod.div anm.2 bn m_n
  let s ← imul n anm.1.residue
  let t ← imul m bmn.1.residue
  let u ← iadd s t
  let ymn ← IntMod.mk' u mn
  let d ← IntMod.sub ymn xmn
  ok (⟨xmn.residue, xm.residue, xn.residue, ymn.residue, d.residue⟩, bmn.2)

/-- crt2.cpp:23-43: `k` rounds from `x` on. -/
def loop (m n mn : Int) : Nat → Int → IntMod.Cache → Res (List Line)
  | 0, _, _ => ok []
  | k + 1, x, c => do
    let l ← line c m n mn x
    let ls ← loop m n mn k (x + 1) l.2
    ok (l.1 :: ls)

/-- crt2.cpp:21-46. -/
def main (m n : Int) : Res (List Line) := do
  let mn ← imul m n
  loop m n mn mn.toNat 0 IntMod.Cache.init

end Crt2
end Spffl
