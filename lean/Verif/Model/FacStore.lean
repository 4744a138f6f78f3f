/-
Model of the storage of spffl/containers/tfacinfo.h with the explicit heap of `Model/Stack.lean`: a block is the array behind
`new factor_and_count_t[n]`, `none` once it has been deleted.  Reading or writing outside a block, or after `delete[]`, is
undefined behaviour.  `z` is the default-constructed element of the array.  `Model/FacInfo.lean` has the same functions on the
list of factors; here nothing of the array is left out, and arguments passed by reference may lie in an array.

As there, `unit` is `have_unit` together with `unit`: copying an element that was never set is not represented.
-/
import Verif.Model.Stack
import Verif.Model.FacInfo

namespace Spffl
open Res
namespace FacStore
open Stack (Heap new delete get put copyLoop)

variable {α : Type} (O : EltOps α)

/-- An entry of the array, `/repo/spffl/containers/tfacinfo.h:27-31`. -/
abbrev Entry (α : Type) := α × Int

/-- `/repo/spffl/containers/tfacinfo.h:33-38`. -/
structure Obj (α : Type) where
  elements : Nat
  num_distinct : Int
  num_allocated : Int
  unit : Option α
deriving DecidableEq

/-- What `const element_type &e` refers to: a variable of the caller, or the factor of an entry of some array. -/
inductive Ref (α : Type) where
  | val (a : α)
  | slot (p : Nat) (i : Nat)

/-- The value referred to, now. -/
def Ref.load (h : Heap (Entry α)) : Ref α → Res α
  | .val a => ok a
  | .slot p i => do
    let x ← get h p i
    ok x.1

/-- `/repo/spffl/containers/tfacinfo.h:45-51`. -/
def ctor (z : Entry α) (h : Heap (Entry α)) : Res (Heap (Entry α) × Obj α) := do
  let r ← new z h 20
  ok (r.1, ⟨r.2, 0, 20, none⟩)

/-- `/repo/spffl/containers/tfacinfo.h:54-63`: the copy has room for exactly the factors there are. -/
def copy (z : Entry α) (h : Heap (Entry α)) (that : Obj α) : Res (Heap (Entry α) × Obj α) := do
  let r ← new z h that.num_distinct
  let h ← copyLoop r.1 that.elements r.2 that.num_distinct
  ok (h, ⟨r.2, that.num_distinct, that.num_distinct, that.unit⟩)

/-- `/repo/spffl/containers/tfacinfo.h:66-79`, the statements of `operator=`; the function then ends without its `return`, which
is undefined behaviour by itself.  `self`: both are the same object. -/
def assignBody (z : Entry α) (h : Heap (Entry α)) (this that : Obj α) (self : Bool) : Res (Heap (Entry α) × Obj α) := do
  let h ← delete h this.elements
  let r ← new z h that.num_distinct
  let src := if self then r.2 else that.elements
  let h ← copyLoop r.1 src r.2 that.num_distinct
  ok (h, ⟨r.2, that.num_distinct, that.num_distinct, that.unit⟩)

/-- `/repo/spffl/containers/tfacinfo.h:82-90`. -/
def dtor (h : Heap (Entry α)) (o : Obj α) : Res (Heap (Entry α)) := delete h o.elements

/-- `/repo/spffl/containers/tfacinfo.h:200-212`; the first argument is the number of entries still to be looked at. -/
def findLoop (h : Heap (Entry α)) (p : Nat) (e : Ref α) : Nat → Nat → Res (Bool × Nat)
  | 0, i => ok (false, i)
  | n + 1, i => do
    let x ← e.load h
    let y ← get h p i
    let b ← O.eq x y.1
    if b then ok (true, i)
    else do
      let c ← O.lt x y.1
      if c then ok (false, i) else findLoop h p e n (i + 1)

/-- `/repo/spffl/containers/tfacinfo.h:228-235`: a larger array when there is no room.  The old one is not deleted. -/
def grow (z : Entry α) (h : Heap (Entry α)) (o : Obj α) : Res (Heap (Entry α) × Obj α) :=
  if o.num_allocated ≤ o.num_distinct then do
    let n ← iadd o.num_allocated 20
    let r ← new z h n
    let h ← copyLoop r.1 o.elements r.2 o.num_distinct
    ok (h, ⟨r.2, o.num_distinct, n, o.unit⟩)
  else ok (h, o)

/-- `/repo/spffl/containers/tfacinfo.h:239-241`: entries from `idx` on move up by one. -/
def shift (h : Heap (Entry α)) (p : Nat) (n idx : Nat) : Res (Heap (Entry α)) :=
  forDown (n + 1) (idx + 1) h fun i h => do
    let x ← get h p ((i - 1 : Nat) : Int)
    put h p i x

/-- `/repo/spffl/containers/tfacinfo.h:218-246`. -/
def insert (z : Entry α) (h : Heap (Entry α)) (o : Obj α) (e : Ref α) (count : Int) : Res (Heap (Entry α) × Obj α) := do
  let r ← findLoop O h o.elements e o.num_distinct.toNat 0
  if r.1 then do
    let x ← get h o.elements r.2
    let c ← iadd x.2 count
    let h ← put h o.elements r.2 (x.1, c)
    ok (h, o)
  else do
    let g ← grow z h o
    let h ← shift g.1 g.2.elements g.2.num_distinct.toNat r.2
    let x ← e.load h
    let h ← put h g.2.elements r.2 (x, count)
    let n ← iadd g.2.num_distinct 1
    ok (h, { g.2 with num_distinct := n })

/-- `/repo/spffl/containers/tfacinfo.h:249-256`. -/
def insertUnit (o : Obj α) (e : α) : Res (Obj α) :=
  match o.unit with
  | some u => do
    let u ← O.mul u e
    ok { o with unit := some u }
  | none => ok { o with unit := some e }

/-- `/repo/spffl/containers/tfacinfo.h:306-315`. -/
def expAll (h : Heap (Entry α)) (o : Obj α) (power : Int) : Res (Heap (Entry α) × Obj α) := do
  let u ← FacInfo.exp_unit O o.unit power
  let h ← forUp 0 o.num_distinct.toNat h fun i h => do
    let x ← get h o.elements i
    let c ← imul x.2 power
    put h o.elements i (x.1, c)
  ok (h, { o with unit := u })

/-- `/repo/spffl/containers/tfacinfo.h:319-322`; `that = none`: the argument is the object itself, whose number of factors and
whose array are looked up anew in each round. -/
def mergeLoop (z : Entry α) (that : Option (Obj α)) : Nat → Nat → Heap (Entry α) → Obj α → Res (Heap (Entry α) × Obj α)
  | 0, _, _, _ => timeout
  | k + 1, i, h, o =>
    let t := that.getD o
    if (i : Int) < t.num_distinct then do
      let x ← get h t.elements i
      let r ← insert O z h o (.slot t.elements i) x.2
      mergeLoop z that k (i + 1) r.1 r.2
    else ok (h, o)

/-- `/repo/spffl/containers/tfacinfo.h:323-330`. -/
def mergeUnit (u v : Option α) : Res (Option α) :=
  match v with
  | none => ok u
  | some v =>
    match u with
    | some u => do
      let w ← O.mul u v
      ok (some w)
    | none => ok (some v)

/-- `/repo/spffl/containers/tfacinfo.h:318-331`. -/
def merge (z : Entry α) (h : Heap (Entry α)) (o : Obj α) (that : Option (Obj α)) : Res (Heap (Entry α) × Obj α) := do
  let r ← mergeLoop O z that (2 ^ 31) 0 h o
  let u ← mergeUnit O r.2.unit (that.getD r.2).unit
  ok (r.1, { r.2 with unit := u })

/-- `/repo/spffl/containers/tfacinfo.h:111-120, 133-140`: factor and count number `which`. -/
def getIth (h : Heap (Entry α)) (o : Obj α) (which : Int) : Res (Entry α) :=
  if which < 0 ∨ o.num_distinct ≤ which then throw else get h o.elements which

/-! ### Programs using any number of factor lists -/

inductive Op (α : Type) where
  | create
  | copy (i : Nat)
  | insert (i : Nat) (e : α) (count : Int)
  | unit (i : Nat) (e : α)
  | exp (i : Nat) (power : Int)
  | merge (i j : Nat)
  | destroy (i : Nat)

structure World (α : Type) where
  heap : Heap (Entry α)
  objs : List (Option (Obj α))

/-- An object that has been created and not been destroyed; `ub` otherwise. -/
def World.obj (w : World α) (i : Nat) : Res (Obj α) :=
  match w.objs[i]? with
  | some (some o) => ok o
  | _ => ub

def step (z : Entry α) (w : World α) : Op α → Res (World α)
  | .create => do
    let r ← ctor z w.heap
    ok ⟨r.1, w.objs ++ [some r.2]⟩
  | .copy i => do
    let o ← w.obj i
    let r ← copy z w.heap o
    ok ⟨r.1, w.objs ++ [some r.2]⟩
  | .insert i e c => do
    let o ← w.obj i
    let r ← insert O z w.heap o (.val e) c
    ok ⟨r.1, w.objs.set i (some r.2)⟩
  | .unit i e => do
    let o ← w.obj i
    let o ← insertUnit O o e
    ok ⟨w.heap, w.objs.set i (some o)⟩
  | .exp i p => do
    let o ← w.obj i
    let r ← expAll O w.heap o p
    ok ⟨r.1, w.objs.set i (some r.2)⟩
  | .merge i j => do
    let o ← w.obj i
    let t ← w.obj j
    let r ← merge O z w.heap o (if i = j then none else some t)
    ok ⟨r.1, w.objs.set i (some r.2)⟩
  | .destroy i => do
    let o ← w.obj i
    let h ← dtor w.heap o
    ok ⟨h, w.objs.set i none⟩

def run (z : Entry α) : List (Op α) → World α → Res (World α)
  | [], w => ok w
  | o :: ops, w => do
    let w ← step O z w o
    run z ops w

end FacStore
end Spffl
