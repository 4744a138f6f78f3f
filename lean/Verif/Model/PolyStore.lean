/-
Model of the storage of the polynomial classes with coefficient arrays, with the explicit heap of `Model/Stack.lean`: a block is the array
behind `new coeff_type[n]`, `none` once it has been deleted; reading or writing outside a block, or after `delete[]`, is undefined
behaviour.  `Model/CPoly.lean` has the same functions on values, where every call makes its own array.  Here objects have addresses:
arguments and results passed by reference may be the same object, arrays are deleted or forgotten, and temporaries are destroyed
where the C++ destroys them.

Line numbers refer to fp_poly_t.cpp; the other three classes have the same code (see `Model/CPoly.lean`).  `inv` is the coefficient which the
default constructor puts there.
-/
import Verif.Model.Stack
import Verif.Model.CPoly

namespace Spffl
open Res
namespace PolyStore
open Stack (Heap new delete get put)

variable {α : Type} (O : CoefOps α) (inv : α)

/-- The data members; `coeffs` is the block. -/
structure Obj where
  coeffs : Nat
  degree : Nat
deriving DecidableEq

/-- `p[i] = e` -/
def store (h : Heap α) (p i : Nat) (e : Res α) : Res (Heap α) := do
  let x ← e
  put h p i x

/-- `new coeff_type[n]` -/
def alloc (h : Heap α) (n : Nat) : Res (Heap α × Nat) := new O.dflt h n

/-- `/repo/spffl/polynomials/fp_poly_t.cpp:629-635`. -/
def recLoop (zero : α) (h : Heap α) (p : Nat) : Nat → Res Nat
  | 0 => ok 0
  | i + 1 => do
    let c ← get h p i
    let e ← O.eq c zero
    if e then recLoop zero h p i else ok i

/-- `/repo/spffl/polynomials/fp_poly_t.cpp:625-639`. -/
def recompute (h : Heap α) (o : Obj) : Res Obj := do
  let c0 ← get h o.coeffs 0
  let zero ← O.sub c0 c0
  let d ← recLoop O zero h o.coeffs (o.degree + 1)
  ok ⟨o.coeffs, d⟩

/-- `/repo/spffl/polynomials/fp_poly_t.cpp:16-21`. -/
def ctor (h : Heap α) : Res (Heap α × Obj) := do
  let r ← alloc O h 1
  let h ← put r.1 r.2 0 inv
  ok (h, ⟨r.2, 0⟩)

/-- `/repo/spffl/polynomials/fp_poly_t.cpp:24-29`. -/
def const (h : Heap α) (c0 : α) : Res (Heap α × Obj) := do
  let r ← alloc O h 1
  let h ← put r.1 r.2 0 c0
  let o ← recompute O h ⟨r.2, 0⟩
  ok (h, o)

/-- `for (i = lo; i < hi; i++) p[i] = src[i]` -/
def copyLoop (h : Heap α) (src p lo hi : Nat) : Res (Heap α) :=
  forUp lo hi h fun i h => store h p i (get h src i)

/-- `/repo/spffl/polynomials/fp_poly_t.cpp:101-107`: copy constructor. -/
def copy (h : Heap α) (that : Obj) : Res (Heap α × Obj) := do
  let r ← alloc O h (that.degree + 1)
  let h ← copyLoop r.1 that.coeffs r.2 0 (that.degree + 1)
  ok (h, ⟨r.2, that.degree⟩)

/-- `/repo/spffl/polynomials/fp_poly_t.cpp:128-138`: assignment.  `self`: both are the same object, whose array is deleted before it is
copied from. -/
def assign (h : Heap α) (this that : Obj) (self : Bool) : Res (Heap α × Obj) := do
  let h ← delete h this.coeffs
  let r ← alloc O h (that.degree + 1)
  let h ← copyLoop r.1 (if self then r.2 else that.coeffs) r.2 0 (that.degree + 1)
  ok (h, ⟨r.2, that.degree⟩)

/-- `/repo/spffl/polynomials/fp_poly_t.cpp:110-114`. -/
def dtor (h : Heap α) (o : Obj) : Res (Heap α) := delete h o.coeffs

/-- `/repo/spffl/polynomials/fp_poly_t.cpp:141-166`.  The array of the default constructor is not deleted. -/
def add (h : Heap α) (a b : Obj) : Res (Heap α × Obj) := do
  let r ← ctor O inv h
  if a.degree < b.degree then do
    let r ← alloc O r.1 (b.degree + 1)
    let p := r.2
    let h ← forUp 0 (a.degree + 1) r.1 fun i h =>
      store h p i (do let x ← get h a.coeffs i; let y ← get h b.coeffs i; O.add x y)
    let h ← copyLoop h b.coeffs p (a.degree + 1) (b.degree + 1)
    let o ← recompute O h ⟨p, b.degree⟩
    ok (h, o)
  else do
    let r ← alloc O r.1 (a.degree + 1)
    let p := r.2
    let h ← forUp 0 (b.degree + 1) r.1 fun i h =>
      store h p i (do let x ← get h a.coeffs i; let y ← get h b.coeffs i; O.add x y)
    let h ← copyLoop h a.coeffs p (b.degree + 1) (a.degree + 1)
    let o ← recompute O h ⟨p, a.degree⟩
    ok (h, o)

/-- `/repo/spffl/polynomials/fp_poly_t.cpp:169-194`. -/
def sub (h : Heap α) (a b : Obj) : Res (Heap α × Obj) := do
  let r ← ctor O inv h
  if a.degree < b.degree then do
    let r ← alloc O r.1 (b.degree + 1)
    let p := r.2
    let h ← forUp 0 (a.degree + 1) r.1 fun i h =>
      store h p i (do let x ← get h a.coeffs i; let y ← get h b.coeffs i; O.sub x y)
    let h ← forUp (a.degree + 1) (b.degree + 1) h fun i h =>
      store h p i (do let y ← get h b.coeffs i; O.neg y)
    let o ← recompute O h ⟨p, b.degree⟩
    ok (h, o)
  else do
    let r ← alloc O r.1 (a.degree + 1)
    let p := r.2
    let h ← forUp 0 (b.degree + 1) r.1 fun i h =>
      store h p i (do let x ← get h a.coeffs i; let y ← get h b.coeffs i; O.sub x y)
    let h ← copyLoop h a.coeffs p (b.degree + 1) (a.degree + 1)
    let o ← recompute O h ⟨p, a.degree⟩
    ok (h, o)

/-- `/repo/spffl/polynomials/fp_poly_t.cpp:197-204`: the array has one entry, whatever the degree. -/
def neg (h : Heap α) (a : Obj) : Res (Heap α × Obj) := do
  let r ← ctor O inv h
  let r ← alloc O r.1 1
  let p := r.2
  let h ← forUp 0 (a.degree + 1) r.1 fun i h =>
    store h p i (do let x ← get h a.coeffs i; O.neg x)
  ok (h, ⟨p, 0⟩)

/-- `/repo/spffl/polynomials/fp_poly_t.cpp:219`. -/
def mulAcc (a b p i j : Nat) (h : Heap α) : Res (Heap α) := do
  let x ← get h a i
  let y ← get h b j
  let m ← O.mul x y
  let c ← get h p (i + j : Nat)
  let s ← O.add c m
  put h p (i + j : Nat) s

/-- `/repo/spffl/polynomials/fp_poly_t.cpp:207-223`. -/
def mul (h : Heap α) (a b : Obj) : Res (Heap α × Obj) := do
  let r ← ctor O inv h
  let r ← alloc O r.1 (a.degree + b.degree + 1)
  let p := r.2
  let c0 ← get r.1 a.coeffs 0
  let zero ← O.sub c0 c0
  let h ← forUp 0 (a.degree + b.degree + 1) r.1 fun k h => store h p k (ok zero)
  let h ← forUp 0 (a.degree + 1) h fun i h =>
    forUp 0 (b.degree + 1) h fun j h => mulAcc O a.coeffs b.coeffs p i j h
  let o ← recompute O h ⟨p, a.degree + b.degree⟩
  ok (h, o)

/-- `/repo/spffl/polynomials/fp_poly_t.cpp:256-263`. -/
def smul (h : Heap α) (a : Obj) (c : α) : Res (Heap α × Obj) := do
  let r ← copy O h a
  let p := r.2.coeffs
  let h ← forUp 0 (r.2.degree + 1) r.1 fun i h =>
    store h p i (do let x ← get h p i; O.mul x c)
  let o ← recompute O h ⟨p, r.2.degree⟩
  ok (h, o)

/-- `/repo/spffl/polynomials/fp_poly_t.cpp:594-622`; the result is the object after the call. -/
def setCoeff (h : Heap α) (o : Obj) (pos : Int) (c : α) : Res (Heap α × Obj) :=
  if pos < 0 then throw
  else do
    let c0 ← get h o.coeffs 0
    let zero ← O.psub c0 0
    if (o.degree : Int) < pos then do
      let r ← alloc O h (pos.toNat + 1)
      let p := r.2
      let h ← copyLoop r.1 o.coeffs p 0 (o.degree + 1)
      let h ← forUp (o.degree + 1) pos.toNat h fun i h => store h p i (ok zero)
      let h ← put h p (pos.toNat : Nat) c
      let h ← delete h o.coeffs
      let e ← O.eq c zero
      if e then do
        let o ← recompute O h ⟨p, pos.toNat⟩
        ok (h, o)
      else ok (h, ⟨p, pos.toNat⟩)
    else do
      let h ← put h o.coeffs (pos.toNat : Nat) c
      if pos.toNat = o.degree then do
        let e ← O.eq c zero
        if e then do
          let o ← recompute O h o
          ok (h, o)
        else ok (h, o)
      else ok (h, o)

/-- `/repo/spffl/polynomials/fp_poly_t.cpp:692-700`. -/
def cmpLoop (h : Heap α) (a b : Nat) : Nat → Res Int
  | 0 => ok 0
  | i + 1 => do
    let x ← get h a i
    let y ← get h b i
    let l ← O.lt x y
    if l then ok (-1)
    else do
      let g ← O.gt x y
      if g then ok 1 else cmpLoop h a b i

/-- `/repo/spffl/polynomials/fp_poly_t.cpp:654-656, 684-701`. -/
def eq (h : Heap α) (a b : Obj) : Res Bool := do
  let d ← if a.degree < b.degree then ok (-1)
    else if b.degree < a.degree then ok 1
    else cmpLoop O h a.coeffs b.coeffs (a.degree + 1)
  ok (d == 0)

/-- `that == zero` with a coefficient on the right: a temporary polynomial is made and destroyed. -/
def eqConst (h : Heap α) (a : Obj) (c : α) : Res (Heap α × Bool) := do
  let r ← const O h c
  let b ← eq O r.1 a r.2
  let h ← dtor r.1 r.2
  ok (h, b)

/-- `/repo/spffl/polynomials/fp_poly_t.cpp:117-120`. -/
def psub (h : Heap α) (a : Obj) (v : Int) : Res (Heap α × Obj) := do
  let c ← get h a.coeffs 0
  let c0 ← O.psub c v
  const O h c0

/-- `/repo/spffl/polynomials/fp_poly_t.cpp:382-392`, one round; the product is destroyed at its end. -/
def divStep (that : Obj) (dlinv : α) (quot rem : Nat) (shift : Nat) (h : Heap α) : Res (Heap α) := do
  let rl ← get h rem (shift + that.degree : Nat)
  let mlt ← O.mul rl dlinv
  let dm ← smul O h that mlt
  let h ← put dm.1 quot (shift : Nat) mlt
  let h ← forUp shift (shift + dm.2.degree + 1) h fun i h =>
    store h rem i (do let x ← get h rem i; let y ← get h dm.2.coeffs (i - shift : Nat); O.sub x y)
  dtor h dm.2

/-- `/repo/spffl/polynomials/fp_poly_t.cpp:354-405`: the local variables `quot` and `rem` at the end.  The array of the default constructor
of `quot` is not deleted. -/
def longDiv (zero : α) (h : Heap α) (this that : Obj) : Res (Heap α × Obj × Obj) := do
  let r ← ctor O inv h
  let q ← alloc O r.1 (this.degree - that.degree + 1)
  let rem ← copy O q.1 this
  let lead ← get rem.1 that.coeffs that.degree
  match ← O.recip lead with
  | none => throw
  | some dlinv => do
    let h ← forDown (this.degree - that.degree + 1) 0 rem.1 (divStep O that dlinv q.2 rem.2.coeffs)
    let top ← get h q.2 (this.degree - that.degree : Nat)
    let e ← O.eq top zero
    if e then throw
    else do
      let o ← recompute O h rem.2
      ok (h, ⟨q.2, this.degree - that.degree⟩, o)

/-! ### Programs using any number of polynomials -/

structure World (α : Type) where
  heap : Heap α
  objs : List (Option Obj)

/-- An object that has been created and not been destroyed; `ub` otherwise. -/
def World.obj (w : World α) (i : Nat) : Res Obj :=
  match w.objs[i]? with
  | some (some o) => ok o
  | _ => ub

/-- Object number `k` is assigned a temporary. -/
def World.assign (w : World α) (k : Nat) (src : Obj) : Res (World α) := do
  let o ← w.obj k
  let r ← PolyStore.assign O w.heap o src false
  ok ⟨r.1, w.objs.set k (some r.2)⟩

/-- Object number `k` is assigned object number `i`. -/
def World.assignObj (w : World α) (k i : Nat) : Res (World α) := do
  let o ← w.obj k
  let t ← w.obj i
  let r ← PolyStore.assign O w.heap o t (decide (k = i))
  ok ⟨r.1, w.objs.set k (some r.2)⟩

/-- `/repo/spffl/polynomials/fp_poly_t.cpp:330-409`: `objs[i].quot_and_rem(objs[j], objs[k], objs[l])`. -/
def quotRem (w : World α) (i j k l : Nat) : Res (World α) := do
  let this ← w.obj i
  let that ← w.obj j
  let _ ← w.obj k
  let _ ← w.obj l
  let c0 ← get w.heap this.coeffs 0
  let zero ← O.sub c0 c0
  let bz ← eqConst O w.heap that zero
  if bz.2 then throw
  else do
    let az ← eqConst O bz.1 this zero
    if az.2 ∨ this.degree < that.degree then do
      let t ← psub O az.1 this 0
      let w ← World.assign O ⟨t.1, w.objs⟩ k t.2
      let h ← dtor w.heap t.2
      World.assignObj O ⟨h, w.objs⟩ l i
    else do
      let d ← longDiv O inv zero az.1 this that
      let w ← World.assign O ⟨d.1, w.objs⟩ k d.2.1
      let w ← World.assign O w l d.2.2
      let h ← dtor w.heap d.2.2
      let h ← dtor h d.2.1
      ok ⟨h, w.objs⟩

inductive Op (α : Type) where
  | create
  | const (c : α)
  | copy (i : Nat)
  | assign (i j : Nat)
  | add (i j : Nat)
  | sub (i j : Nat)
  | neg (i : Nat)
  | mul (i j : Nat)
  | smul (i : Nat) (c : α)
  | set (i : Nat) (pos : Int) (c : α)
  | divmod (i j k l : Nat)
  | destroy (i : Nat)

def World.push (w : World α) (r : Heap α × Obj) : World α := ⟨r.1, w.objs ++ [some r.2]⟩

def step (w : World α) : Op α → Res (World α)
  | .create => do
    let r ← ctor O inv w.heap
    ok (w.push r)
  | .const c => do
    let r ← const O w.heap c
    ok (w.push r)
  | .copy i => do
    let a ← w.obj i
    let r ← copy O w.heap a
    ok (w.push r)
  | .assign i j => World.assignObj O w i j
  | .add i j => do
    let a ← w.obj i
    let b ← w.obj j
    let r ← add O inv w.heap a b
    ok (w.push r)
  | .sub i j => do
    let a ← w.obj i
    let b ← w.obj j
    let r ← sub O inv w.heap a b
    ok (w.push r)
  | .neg i => do
    let a ← w.obj i
    let r ← neg O inv w.heap a
    ok (w.push r)
  | .mul i j => do
    let a ← w.obj i
    let b ← w.obj j
    let r ← mul O inv w.heap a b
    ok (w.push r)
  | .smul i c => do
    let a ← w.obj i
    let r ← smul O w.heap a c
    ok (w.push r)
  | .set i pos c => do
    let a ← w.obj i
    let r ← setCoeff O w.heap a pos c
    ok ⟨r.1, w.objs.set i (some r.2)⟩
  | .divmod i j k l => quotRem O inv w i j k l
  | .destroy i => do
    let a ← w.obj i
    let h ← dtor w.heap a
    ok ⟨h, w.objs.set i none⟩

def run : List (Op α) → World α → Res (World α)
  | [], w => ok w
  | o :: ops, w => do
    let w ← step O inv w o
    run ops w

end PolyStore
end Spffl
