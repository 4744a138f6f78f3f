/-
Model of spffl/containers/tstack.h with an explicit heap: a block is the array behind `new element_type[n]`,
`none` once it has been deleted.  Reading or writing outside a block, or after `delete[]`, is undefined behaviour.
`z` is the default-constructed element.

Not modelled: `operator<<` and `operator>>` (lines 94-172), which name members the class does not have.
-/
import Verif.Base.Res

namespace Spffl
open Res
namespace Stack

variable {α : Type}

abbrev Heap (α : Type) := List (Option (List α))

structure Stk where
  elements : Nat
  num_allocated : Int
  freeidx : Int
deriving DecidableEq

/-- `new element_type[n]`. -/
def new (z : α) (h : Heap α) (n : Int) : Res (Heap α × Nat) :=
  if n < 0 then throw else ok (h ++ [some (List.replicate n.toNat z)], h.length)

/-- `delete[] p`. -/
def delete (h : Heap α) (p : Nat) : Res (Heap α) :=
  match h[p]? with
  | some (some _) => ok (h.set p none)
  | _ => ub

def get (h : Heap α) (p : Nat) (i : Int) : Res α :=
  match h[p]? with
  | some (some b) => if i < 0 then ub else rd b i.toNat
  | _ => ub

def put (h : Heap α) (p : Nat) (i : Int) (x : α) : Res (Heap α) :=
  match h[p]? with
  | some (some b) => if i < 0 then ub else do
      let b ← wr b i.toNat x
      ok (h.set p (some b))
  | _ => ub

/-- `for (int i = 0; i < n; i++) dst[i] = src[i]` (lines 32-34, 55-57, 67-69). -/
def copyLoop (h : Heap α) (src dst : Nat) (n : Int) : Res (Heap α) :=
  forUp 0 n.toNat h fun i h => do
    let x ← get h src i
    put h dst i x

/-- tstack.h:21-25. -/
def ctor (z : α) (h : Heap α) : Res (Heap α × Stk) := do
  let r ← new z h 10
  ok (r.1, ⟨r.2, 10, 0⟩)

/-- tstack.h:28-35. -/
def copy (z : α) (h : Heap α) (that : Stk) : Res (Heap α × Stk) := do
  let r ← new z h that.num_allocated
  let h ← copyLoop r.1 that.elements r.2 that.freeidx
  ok (h, ⟨r.2, that.num_allocated, that.freeidx⟩)

/-- tstack.h:38-45. -/
def dtor (h : Heap α) (s : Stk) : Res (Heap α) := delete h s.elements

/-- tstack.h:48-58, the statements of `operator=`; the function then ends without its `return`, which is undefined
behaviour by itself.  `this` and `that` may be the same object, whose fields are then overwritten before they are read. -/
def assignBody (z : α) (h : Heap α) (this that : Stk) (self : Bool) : Res (Heap α × Stk) := do
  let h ← delete h this.elements
  let r ← new z h that.num_allocated
  let src := if self then r.2 else that.elements
  let h ← copyLoop r.1 src r.2 that.freeidx
  ok (h, ⟨r.2, that.num_allocated, that.freeidx⟩)

/-- tstack.h:61-73. -/
def push (z : α) (h : Heap α) (s : Stk) (re : α) : Res (Heap α × Stk) :=
  if s.num_allocated ≤ s.freeidx then do
    let n ← iadd s.num_allocated 10
    let r ← new z h n
    let h ← copyLoop r.1 s.elements r.2 s.freeidx
    let h ← delete h s.elements
    let h ← put h r.2 s.freeidx re
    let f ← iadd s.freeidx 1
    ok (h, ⟨r.2, n, f⟩)
  else do
    let h ← put h s.elements s.freeidx re
    let f ← iadd s.freeidx 1
    ok (h, ⟨s.elements, s.num_allocated, f⟩)

/-- tstack.h:76-84; `none`: the return value `false`. -/
def pop (h : Heap α) (s : Stk) : Res (Stk × Option α) :=
  if 0 < s.freeidx then do
    let f ← isub s.freeidx 1
    let x ← get h s.elements f
    ok (⟨s.elements, s.num_allocated, f⟩, some x)
  else ok (s, none)

/-! ### Programs using any number of stacks -/

inductive Op (α : Type) where
  | create
  | copy (i : Nat)
  | push (i : Nat) (a : α)
  | pop (i : Nat)
  | destroy (i : Nat)

structure World (α : Type) where
  heap : Heap α
  objs : List (Option Stk)

/-- One operation; `ub` on an object that does not exist (any more).  The output is that of `pop`. -/
def step (z : α) (w : World α) : Op α → Res (World α × Option (Option α))
  | .create => do
    let r ← ctor z w.heap
    ok (⟨r.1, w.objs ++ [some r.2]⟩, none)
  | .copy i =>
    match w.objs[i]? with
    | some (some s) => do
      let r ← Stack.copy z w.heap s
      ok (⟨r.1, w.objs ++ [some r.2]⟩, none)
    | _ => ub
  | .push i a =>
    match w.objs[i]? with
    | some (some s) => do
      let r ← Stack.push z w.heap s a
      ok (⟨r.1, w.objs.set i (some r.2)⟩, none)
    | _ => ub
  | .pop i =>
    match w.objs[i]? with
    | some (some s) => do
      let r ← Stack.pop w.heap s
      ok (⟨w.heap, w.objs.set i (some r.1)⟩, some r.2)
    | _ => ub
  | .destroy i =>
    match w.objs[i]? with
    | some (some s) => do
      let h ← dtor w.heap s
      ok (⟨h, w.objs.set i none⟩, none)
    | _ => ub

/-- A program and the list of results of its `pop`s. -/
def run (z : α) : List (Op α) → World α → Res (World α × List (Option α))
  | [], w => ok (w, [])
  | o :: ops, w => do
    let r ← step z w o
    let r' ← run z ops r.1
    ok (r'.1, r.2.toList ++ r'.2)

end Stack
end Spffl
