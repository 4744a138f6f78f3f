/-
Model of the programs for elliptic curves: `/repo/pre-cmake/apps/ell/fpelladd.cpp`, `fpellpts.cpp` (over the integers modulo p) and
`ftelladd.cpp`, `ftellpts.cpp` (over the residues of bit polynomials).  These are the programs of the older source tree; they use the
classes `intmod_t` and `f2_polymod_t` modelled in `Model/IntMod.lean` and `Model/F2PolyMod.lean`.

A program is modelled from the point where its arguments have been read (the `sscanf` calls are not modelled); `exit(1)` after a
failed check is an exception.  The result is what is printed: a point, or the points in the order of the lines.
-/
import Verif.Model.IntMod
import Verif.Model.F2PolyMod
import Verif.Model.Lists

namespace Spffl
open Res
namespace Elliptic

/-- The three coordinates which the programs read and print. -/
structure Pt (α : Type) where
  x : α
  y : α
  z : α
deriving DecidableEq, Repr

/-- `b1 && b2 && b3` -/
def and3 (b1 b2 b3 : Res Bool) : Res Bool := do
  if ← b1 then do
    if ← b2 then b3 else ok false
  else ok false

/-! ### Over the integers modulo p -/

/-- /repo/pre-cmake/apps/ell/fpelladd.cpp:11-43; the third coordinate is not used. -/
def fp_check (a b c : IntMod) (P : Pt IntMod) : Res Unit := do
  let yy ← IntMod.mul P.y P.y
  let u ← IntMod.sub P.x a
  let u ← IntMod.mul P.x u
  let u ← IntMod.sub u b
  let u ← IntMod.mul P.x u
  let f ← IntMod.sub yy u
  let f ← IntMod.sub f c
  let zero ← IntMod.sub P.y P.y
  if ← IntMod.eq f zero then ok () else throw

/-- /repo/pre-cmake/apps/ell/fpelladd.cpp:92-95 and 107-110: the third point on the line with slope `lambda` through P. -/
def fp_third (a one : IntMod) (P : Pt IntMod) (x2 lambda : IntMod) : Res (Pt IntMod) := do
  let t ← IntMod.mul lambda P.x
  let nu ← IntMod.sub P.y t
  let x3 ← IntMod.mul lambda lambda
  let x3 ← IntMod.sub x3 a
  let x3 ← IntMod.sub x3 P.x
  let x3 ← IntMod.sub x3 x2
  let y3 ← IntMod.mul lambda x3
  let y3 ← IntMod.add y3 nu
  let y3 ← IntMod.neg y3
  ok ⟨x3, y3, one⟩

/-- /repo/pre-cmake/apps/ell/fpelladd.cpp:91: `(x1*x1*3 + a*x1*2 + b) / (y1*2)`. -/
def fp_tangent (a b : IntMod) (P : Pt IntMod) : Res IntMod := do
  let u ← IntMod.mul P.x P.x
  let u ← IntMod.mulInt u 3
  let v ← IntMod.mul a P.x
  let v ← IntMod.mulInt v 2
  let u ← IntMod.add u v
  let u ← IntMod.add u b
  let d ← IntMod.mulInt P.y 2
  let q ← IntMod.div IntMod.Cache.init u d
  ok q.1

/-- /repo/pre-cmake/apps/ell/fpelladd.cpp:106: `(y2 - y1) / (x2 - x1)`. -/
def fp_chord (P Q : Pt IntMod) : Res IntMod := do
  let u ← IntMod.sub Q.y P.y
  let d ← IntMod.sub Q.x P.x
  let q ← IntMod.div IntMod.Cache.init u d
  ok q.1

/-- /repo/pre-cmake/apps/ell/fpelladd.cpp:71-111. -/
def fp_sum (a b zero one : IntMod) (P Q : Pt IntMod) : Res (Pt IntMod) := do
  if ← and3 (IntMod.eq P.x zero) (IntMod.eq P.y one) (IntMod.eq P.z zero) then ok Q
  else if ← and3 (IntMod.eq Q.x zero) (IntMod.eq Q.y one) (IntMod.eq Q.z zero) then ok P
  else if ← and3 (IntMod.eq P.x Q.x) (IntMod.eq P.y Q.y) (IntMod.eq P.z Q.z) then do
    if ← IntMod.eqInt P.y 0 then ok ⟨zero, one, zero⟩
    else do
      let lambda ← fp_tangent a b P
      fp_third a one P P.x lambda
  else if ← IntMod.eq P.x Q.x then ok ⟨zero, one, zero⟩
  else do
    let lambda ← fp_chord P Q
    fp_third a one P Q.x lambda

/-- /repo/pre-cmake/apps/ell/fpelladd.cpp:66-115. -/
def fp_add_main (p : Int) (a b c : IntMod) (P Q : Pt IntMod) : Res (Pt IntMod) := do
  let zero ← IntMod.mk' 0 p
  let one ← IntMod.mk' 1 p
  fp_check a b c P
  fp_check a b c Q
  let R ← fp_sum a b zero one P Q
  fp_check a b c R
  ok R

/-- /repo/pre-cmake/apps/ell/fpellpts.cpp:19-21. -/
def fp_on (a b c : IntMod) (P : Pt IntMod) : Res Bool := do
  let l ← IntMod.mul P.y P.y
  let l ← IntMod.mul l P.z
  let r ← IntMod.mul P.x P.x
  let r ← IntMod.mul r P.x
  let u ← IntMod.mul a P.x
  let u ← IntMod.mul u P.x
  let u ← IntMod.mul u P.z
  let r ← IntMod.add r u
  let u ← IntMod.mul b P.x
  let u ← IntMod.mul u P.z
  let u ← IntMod.mul u P.z
  let r ← IntMod.add r u
  let u ← IntMod.mul c P.z
  let u ← IntMod.mul u P.z
  let u ← IntMod.mul u P.z
  let r ← IntMod.add r u
  IntMod.eq l r

/-- /repo/pre-cmake/apps/ell/fpellpts.cpp:11-24, `checkf`: the lines printed so far and one more if the point is on the curve. -/
def fp_line (a b c : IntMod) (P : Pt IntMod) (out : List (Pt IntMod)) : Res (List (Pt IntMod)) := do
  if ← fp_on a b c P then ok (out ++ [P]) else ok out

/-- /repo/pre-cmake/apps/ell/fpellpts.cpp:44-63. -/
def fp_points_main (p : Nat) (a b c : IntMod) : Res (List (Pt IntMod)) := do
  let one ← IntMod.mk' 1 p
  let zero ← IntMod.mk' 0 p
  let out ← forUp 0 p [] fun xi out => do
    let x ← IntMod.mk' xi p
    fp_line a b c ⟨x, one, zero⟩ out
  let out ← fp_line a b c ⟨one, zero, zero⟩ out
  forUp 0 p out fun xi out => do
    let x ← IntMod.mk' xi p
    forUp 0 p out fun yi out => do
      let y ← IntMod.mk' yi p
      fp_line a b c ⟨x, y, one⟩ out

/-! ### Over the residues of bit polynomials -/

/-- /repo/pre-cmake/apps/ell/ftelladd.cpp:13-53. -/
def ft_check (a1 a2 a3 a4 a6 : F2Mod) (P : Pt F2Mod) : Res Unit := do
  let f ← F2Mod.mul P.y P.y
  let u ← F2Mod.mul a1 P.x
  let u ← F2Mod.mul u P.y
  let f ← F2Mod.add f u
  let u ← F2Mod.mul a3 P.y
  let u ← F2Mod.mul u P.z
  let f ← F2Mod.add f u
  let f ← F2Mod.mul f P.z
  let u ← F2Mod.mul a2 P.z
  let u ← F2Mod.add P.x u
  let u ← F2Mod.mul P.x u
  let v ← F2Mod.mul a4 P.z
  let u ← F2Mod.add u v
  let u ← F2Mod.mul P.x u
  let f ← F2Mod.add f u
  let u ← F2Mod.mul a6 P.z
  let f ← F2Mod.add f u
  let zero ← F2Mod.sub P.y P.y
  if ← F2Mod.eq f zero then ok () else throw

/-- /repo/pre-cmake/apps/ell/ftelladd.cpp:98-100 and 113-115. -/
def ft_third (a1 a2 a3 one : F2Mod) (P Q : Pt F2Mod) (lambda nu : F2Mod) : Res (Pt F2Mod) := do
  let x3 ← F2Mod.mul lambda lambda
  let u ← F2Mod.mul a1 lambda
  let x3 ← F2Mod.add x3 u
  let x3 ← F2Mod.add x3 a2
  let x3 ← F2Mod.add x3 P.x
  let x3 ← F2Mod.add x3 Q.x
  let y3 ← F2Mod.add lambda a1
  let y3 ← F2Mod.mul y3 x3
  let y3 ← F2Mod.add y3 nu
  let y3 ← F2Mod.add y3 a3
  ok ⟨x3, y3, one⟩

/-- /repo/pre-cmake/apps/ell/ftelladd.cpp:95: `(x1*x1 + a4 + a1*y1) / (a1*x1 + a3)`. -/
def ft_tangent (a1 a3 a4 : F2Mod) (P : Pt F2Mod) : Res F2Mod := do
  let u ← F2Mod.mul P.x P.x
  let u ← F2Mod.add u a4
  let v ← F2Mod.mul a1 P.y
  let u ← F2Mod.add u v
  let d ← F2Mod.mul a1 P.x
  let d ← F2Mod.add d a3
  F2Mod.div u d

/-- /repo/pre-cmake/apps/ell/ftelladd.cpp:96: `(x1*x1*x1 + a4*x1 + a3*y1) / (a1*x1 + a3)`. -/
def ft_tangent_nu (a1 a3 a4 : F2Mod) (P : Pt F2Mod) : Res F2Mod := do
  let u ← F2Mod.mul P.x P.x
  let u ← F2Mod.mul u P.x
  let v ← F2Mod.mul a4 P.x
  let u ← F2Mod.add u v
  let v ← F2Mod.mul a3 P.y
  let u ← F2Mod.add u v
  let d ← F2Mod.mul a1 P.x
  let d ← F2Mod.add d a3
  F2Mod.div u d

/-- /repo/pre-cmake/apps/ell/ftelladd.cpp:110: `(y2 + y1) / (x2 + x1)`. -/
def ft_chord (P Q : Pt F2Mod) : Res F2Mod := do
  let u ← F2Mod.add Q.y P.y
  let d ← F2Mod.add Q.x P.x
  F2Mod.div u d

/-- /repo/pre-cmake/apps/ell/ftelladd.cpp:111: `(y1*x2 + y2*x1) / (x2 + x1)`. -/
def ft_chord_nu (P Q : Pt F2Mod) : Res F2Mod := do
  let u ← F2Mod.mul P.y Q.x
  let v ← F2Mod.mul Q.y P.x
  let u ← F2Mod.add u v
  let d ← F2Mod.add Q.x P.x
  F2Mod.div u d

/-- /repo/pre-cmake/apps/ell/ftelladd.cpp:81-116. -/
def ft_sum (a1 a2 a3 a4 zero one : F2Mod) (P Q : Pt F2Mod) : Res (Pt F2Mod) := do
  if ← and3 (F2Mod.eq P.x zero) (F2Mod.eq P.y one) (F2Mod.eq P.z zero) then ok Q
  else if ← and3 (F2Mod.eq Q.x zero) (F2Mod.eq Q.y one) (F2Mod.eq Q.z zero) then ok P
  else if ← and3 (F2Mod.eq P.x Q.x) (F2Mod.eq P.y Q.y) (F2Mod.eq P.z Q.z) then do
    let lambda ← ft_tangent a1 a3 a4 P
    let nu ← ft_tangent_nu a1 a3 a4 P
    ft_third a1 a2 a3 one P Q lambda nu
  else if ← F2Mod.eq P.x Q.x then ok ⟨zero, one, zero⟩
  else do
    let lambda ← ft_chord P Q
    let nu ← ft_chord_nu P Q
    ft_third a1 a2 a3 one P Q lambda nu

/-- /repo/pre-cmake/apps/ell/ftelladd.cpp:76-120. -/
def ft_add_main (m : F2P) (a1 a2 a3 a4 a6 : F2Mod) (P Q : Pt F2Mod) : Res (Pt F2Mod) := do
  let zero ← F2Mod.prime_subfield_element 0 m
  let one ← F2Mod.prime_subfield_element 1 m
  ft_check a1 a2 a3 a4 a6 P
  ft_check a1 a2 a3 a4 a6 Q
  let R ← ft_sum a1 a2 a3 a4 zero one P Q
  ft_check a1 a2 a3 a4 a6 R
  ok R

/-- /repo/pre-cmake/apps/ell/ftellpts.cpp:22-23. -/
def ft_on (a1 a2 a3 a4 a6 : F2Mod) (P : Pt F2Mod) : Res Bool := do
  let l ← F2Mod.mul P.y P.y
  let l ← F2Mod.mul l P.z
  let u ← F2Mod.mul a1 P.x
  let u ← F2Mod.mul u P.y
  let u ← F2Mod.mul u P.z
  let l ← F2Mod.add l u
  let u ← F2Mod.mul a3 P.y
  let u ← F2Mod.mul u P.z
  let u ← F2Mod.mul u P.z
  let l ← F2Mod.add l u
  let r ← F2Mod.mul P.x P.x
  let r ← F2Mod.mul r P.x
  let u ← F2Mod.mul a2 P.x
  let u ← F2Mod.mul u P.x
  let u ← F2Mod.mul u P.z
  let r ← F2Mod.add r u
  let u ← F2Mod.mul a4 P.x
  let u ← F2Mod.mul u P.z
  let u ← F2Mod.mul u P.z
  let r ← F2Mod.add r u
  let u ← F2Mod.mul a6 P.z
  let u ← F2Mod.mul u P.z
  let u ← F2Mod.mul u P.z
  let r ← F2Mod.add r u
  F2Mod.eq l r

/-- /repo/pre-cmake/apps/ell/ftellpts.cpp:12-27, `checkf`. -/
def ft_line (a1 a2 a3 a4 a6 : F2Mod) (P : Pt F2Mod) (out : List (Pt F2Mod)) : Res (List (Pt F2Mod)) := do
  if ← ft_on a1 a2 a3 a4 a6 P then ok (out ++ [P]) else ok out

/-- /repo/pre-cmake/apps/ell/ftellpts.cpp:43-70. -/
def ft_points_main (tm : TrimMask) (m : F2P) (a1 a2 a3 a4 a6 : F2Mod) : Res (List (Pt F2Mod)) := do
  let fq ← Lists.f2_polymod_list tm m .all
  let zero ← F2Mod.prime_subfield_element 0 m
  let one ← F2Mod.prime_subfield_element 1 m
  let out ← forUp 0 fq.length [] fun i out => do
    let x ← rd fq i
    ft_line a1 a2 a3 a4 a6 ⟨x, one, zero⟩ out
  let out ← ft_line a1 a2 a3 a4 a6 ⟨one, zero, zero⟩ out
  forUp 0 fq.length out fun i out =>
    forUp 0 fq.length out fun j out => do
      let x ← rd fq i
      let y ← rd fq j
      ft_line a1 a2 a3 a4 a6 ⟨x, y, one⟩ out

end Elliptic
end Spffl
