/-
The heap model of the polynomial classes does what the model on values does: same result, same exceptions, same undefined behaviour.
-/
import Verif.Model.PolyStore
import Mathlib.Tactic.Common
import Mathlib.Tactic.Linarith

namespace Spffl
open Res

/-- Two calls have the same outcome, up to `Q` on what they return. -/
def Res.Sim {β γ : Type} (x : Res β) (y : Res γ) (Q : β → γ → Prop) : Prop :=
  match x, y with
  | ok a, ok b => Q a b
  | Res.throw, Res.throw => True
  | Res.ub, Res.ub => True
  | Res.timeout, Res.timeout => True
  | _, _ => False

namespace Res
variable {β γ β' γ' : Type}

theorem Sim.bind {x : Res β} {y : Res γ} {Q : β → γ → Prop} {f : β → Res β'} {g : γ → Res γ'} {R : β' → γ' → Prop}
    (h : Sim x y Q) (hf : ∀ a b, Q a b → Sim (f a) (g b) R) : Sim (x >>= f) (y >>= g) R := by
  cases x <;> cases y <;> simp only [Sim] at h <;> first | exact hf _ _ h | trivial

theorem Sim.mono {x : Res β} {y : Res γ} {Q R : β → γ → Prop} (h : Sim x y Q) (hq : ∀ a b, Q a b → R a b) : Sim x y R := by
  cases x <;> cases y <;> simp only [Sim] at h ⊢ <;> first | exact hq _ _ h | trivial

theorem Sim.rfl' (x : Res β) : Sim x x Eq := by cases x <;> simp [Sim]

theorem Sim.of_eq {x y : Res β} (h : x = y) : Sim x y Eq := h ▸ Sim.rfl' x

/-- A computation common to both sides. -/
theorem Sim.same {x : Res β} {f : β → Res β'} {g : β → Res γ'} {R : β' → γ' → Prop} (hf : ∀ a, Sim (f a) (g a) R) :
    Sim (x >>= f) (x >>= g) R :=
  (Sim.rfl' x).bind fun a b h => h ▸ hf a

/-- Common value of two equal computations. -/
theorem Sim.eqv {x y : Res β} (h : x = y) {f : β → Res β'} {g : β → Res γ'} {R : β' → γ' → Prop} (hf : ∀ a, Sim (f a) (g a) R) :
    Sim (x >>= f) (y >>= g) R := h ▸ Sim.same hf

theorem sim_ok {a : β} {b : γ} {Q : β → γ → Prop} : Sim (ok a) (ok b) Q ↔ Q a b := Iff.rfl

theorem Sim.ok_left {x : Res β} {y : Res γ} {Q : β → γ → Prop} (h : Sim x y Q) {b : γ} (hy : y = ok b) : x.Ok fun a => Q a b := by
  subst hy
  cases x <;> simp only [Sim] at h
  exact ⟨_, rfl, h⟩

theorem sim_loopUp {f : Nat → β → Res β} {g : Nat → γ → Res γ} {I : β → γ → Prop} : ∀ (n lo : Nat) (a : β) (b : γ), I a b →
    (∀ i a b, lo ≤ i → i < lo + n → I a b → Sim (f i a) (g i b) I) → Sim (loopUp f n lo a) (loopUp g n lo b) I
  | 0, _, _, _, h, _ => h
  | n + 1, lo, a, b, h, hs => by
    unfold loopUp
    exact (hs lo a b (by omega) (by omega) h).bind fun a b h =>
      sim_loopUp n (lo + 1) a b h fun i a b h1 h2 => hs i a b (by omega) (by omega)

theorem sim_forUp {f : Nat → β → Res β} {g : Nat → γ → Res γ} {I : β → γ → Prop} {lo hi : Nat} {a : β} {b : γ} (h : I a b)
    (hs : ∀ i a b, I a b → Sim (f i a) (g i b) I) : Sim (forUp lo hi a f) (forUp lo hi b g) I :=
  sim_loopUp _ _ _ _ h fun i a b _ _ => hs i a b

theorem sim_loopDown {f : Nat → β → Res β} {g : Nat → γ → Res γ} {I : β → γ → Prop} {lo : Nat} : ∀ (n : Nat) (a : β) (b : γ), I a b →
    (∀ i a b, I a b → Sim (f i a) (g i b) I) → Sim (loopDown f lo n a) (loopDown g lo n b) I
  | 0, _, _, h, _ => h
  | n + 1, a, b, h, hs => by
    unfold loopDown
    exact (hs (lo + n) a b h).bind fun a b h => sim_loopDown n a b h hs

theorem sim_forDown {f : Nat → β → Res β} {g : Nat → γ → Res γ} {I : β → γ → Prop} {lo hi : Nat} {a : β} {b : γ} (h : I a b)
    (hs : ∀ i a b, I a b → Sim (f i a) (g i b) I) : Sim (forDown hi lo a f) (forDown hi lo b g) I :=
  sim_loopDown _ _ _ h hs

end Res

namespace PolyStore
open Stack (Heap new delete get put)

variable {α : Type} {O : CoefOps α} {inv : α}

/-- The number of arrays that have been allocated and not been deleted. -/
def live (h : Heap α) : Nat := h.countP Option.isSome

theorem get_eq {h : Heap α} {p : Nat} {b : List α} (hp : h[p]? = some (some b)) (i : Nat) : get h p (i : Int) = rd b i := by
  unfold Stack.get
  rw [hp]
  simp only [Int.toNat_natCast]
  rw [if_neg (by omega)]

theorem get_zero {h : Heap α} {p : Nat} {b : List α} (hp : h[p]? = some (some b)) : get h p 0 = rd b 0 := get_eq hp 0

theorem put_eq {h : Heap α} {p : Nat} {b : List α} (hp : h[p]? = some (some b)) (i : Nat) (x : α) :
    put h p (i : Int) x = (wr b i x >>= fun b => ok (h.set p (some b))) := by
  unfold Stack.put
  rw [hp]
  simp only [Int.toNat_natCast]
  rw [if_neg (by omega)]

theorem delete_eq {h : Heap α} {p : Nat} {b : List α} (hp : h[p]? = some (some b)) : delete h p = ok (h.set p none) := by
  unfold Stack.delete
  rw [hp]

theorem alloc_eq (h : Heap α) (n : Nat) : alloc O h n = ok (h ++ [some (CPoly.new O n)], h.length) := by
  unfold alloc Stack.new CPoly.new
  rw [if_neg (by omega), Int.toNat_natCast]

theorem lt_of {h : Heap α} {p : Nat} {b : Option (List α)} (hp : h[p]? = some b) : p < h.length :=
  (List.getElem?_eq_some_iff.1 hp).1

theorem live_append (h : Heap α) (b : List α) : live (h ++ [some b]) = live h + 1 := by
  unfold live; simp

theorem live_set {h : Heap α} {p : Nat} {b : List α} (hp : h[p]? = some (some b)) (c : List α) : live (h.set p (some c)) = live h := by
  obtain ⟨h1, h2⟩ := List.getElem?_eq_some_iff.1 hp
  unfold live
  rw [List.countP_set h1, h2]
  simp only [Option.isSome_some, if_true]
  have : 0 < List.countP Option.isSome h := List.countP_pos_iff.2 ⟨some b, h2 ▸ List.getElem_mem h1, rfl⟩
  omega

theorem live_del {h : Heap α} {p : Nat} {b : List α} (hp : h[p]? = some (some b)) : live (h.set p none) + 1 = live h := by
  obtain ⟨h1, h2⟩ := List.getElem?_eq_some_iff.1 hp
  unfold live
  rw [List.countP_set h1, h2]
  simp only [Option.isSome_some, Option.isSome_none, if_true]
  have : 0 < List.countP Option.isSome h := List.countP_pos_iff.2 ⟨some b, h2 ▸ List.getElem_mem h1, rfl⟩
  simp; omega

/-- All arrays of `h` are in `g` as they were, and `g` has `n` more that have not been deleted. -/
structure Fr (h g : Heap α) (n : Nat) : Prop where
  le : h.length ≤ g.length
  eq : ∀ q, q < h.length → g[q]? = h[q]?
  live : live g = live h + n

theorem Fr.refl (h : Heap α) : Fr h h 0 := ⟨le_rfl, fun _ _ => rfl, rfl⟩

theorem Fr.trans {a b c : Heap α} {m n : Nat} (h1 : Fr a b m) (h2 : Fr b c n) : Fr a c (m + n) :=
  ⟨h1.le.trans h2.le, fun q hq => (h2.eq q (hq.trans_le h1.le)).trans (h1.eq q hq), by rw [h2.live, h1.live]; omega⟩

theorem Fr.app {a b : Heap α} {n : Nat} (h : Fr a b n) (c : List α) : Fr a (b ++ [some c]) (n + 1) :=
  ⟨h.le.trans (by simp), fun q hq => by rw [List.getElem?_append_left (hq.trans_le h.le), h.eq q hq], by rw [live_append, h.live]; omega⟩

theorem Fr.set {a b : Heap α} {n p : Nat} {x : List α} (h : Fr a b n) (hp : a.length ≤ p) (hb : b[p]? = some (some x)) (c : List α) :
    Fr a (b.set p (some c)) n :=
  ⟨by simpa using h.le, fun q hq => by rw [List.getElem?_set_ne (by omega), h.eq q hq], by rw [live_set hb, h.live]⟩

theorem Fr.del {a b : Heap α} {n p : Nat} {x : List α} (h : Fr a b (n + 1)) (hp : a.length ≤ p) (hb : b[p]? = some (some x)) :
    Fr a (b.set p none) n :=
  ⟨by simpa using h.le, fun q hq => by rw [List.getElem?_set_ne (by omega), h.eq q hq], by
    have := live_del hb; have := h.live; omega⟩

theorem Fr.old {a b : Heap α} {n p : Nat} {x : List α} (h : Fr a b n) (hp : a[p]? = some (some x)) : b[p]? = some (some x) := by
  rw [h.eq p (lt_of hp), hp]

/-- `cs` is in the array `p` which is not in `h`. -/
structure Own (h g : Heap α) (p : Nat) (cs : List α) (n : Nat) : Prop where
  fr : Fr h g n
  ge : h.length ≤ p
  at_ : g[p]? = some (some cs)

/-- The object has the degree and the array of the value. -/
structure Has (h : Heap α) (o : Obj) (P : CPoly α) : Prop where
  at_ : h[o.coeffs]? = some (some P.coeffs)
  deg : o.degree = P.degree

theorem Has.fr {h g : Heap α} {o : Obj} {P : CPoly α} {n : Nat} (H : Has h o P) (F : Fr h g n) : Has g o P := ⟨F.old H.at_, H.deg⟩

/-- A new object with `n - 1` further arrays nobody owns. -/
structure Fresh (h : Heap α) (r : Heap α × Obj) (P : CPoly α) (n : Nat) : Prop where
  own : Own h r.1 r.2.coeffs P.coeffs n
  deg : r.2.degree = P.degree

theorem Fresh.has {h : Heap α} {r : Heap α × Obj} {P : CPoly α} {n : Nat} (F : Fresh h r P n) : Has r.1 r.2 P := ⟨F.own.at_, F.deg⟩

theorem own_alloc (h : Heap α) (n : Nat) : Own h (h ++ [some (CPoly.new O n)]) h.length (CPoly.new O n) 1 :=
  ⟨(Fr.refl h).app _, le_rfl, by simp⟩

theorem put_sim {h g : Heap α} {p n : Nat} {cs : List α} (H : Own h g p cs n) (i : Nat) (x : α) :
    Sim (put g p (i : Int) x) (wr cs i x) fun g' cs' => Own h g' p cs' n := by
  rw [put_eq H.at_]
  unfold wr
  split
  · rw [ok_bind, sim_ok]
    exact ⟨H.fr.set H.ge H.at_ _, H.ge, by rw [List.getElem?_set_self (lt_of H.at_)]⟩
  · trivial

theorem store_sim {h g : Heap α} {p n : Nat} {cs : List α} (H : Own h g p cs n) (i : Nat) {e e' : Res α} (he : e = e') :
    Sim (store g p i e) (Spffl.store cs i e') fun g' cs' => Own h g' p cs' n := by
  subst he
  unfold store Spffl.store
  exact Sim.same fun x => put_sim H i x

theorem recLoop_eq {h : Heap α} {p : Nat} {cs : List α} (hp : h[p]? = some (some cs)) (zero : α) :
    ∀ n, recLoop O zero h p n = CPoly.recLoop O zero cs n
  | 0 => rfl
  | n + 1 => by
    unfold recLoop CPoly.recLoop
    rw [get_eq hp]
    simp only [recLoop_eq hp zero n]

theorem recompute_eq {h : Heap α} {o : Obj} {P : CPoly α} (H : Has h o P) :
    recompute O h o = (CPoly.recompute_degree O P >>= fun Q => ok ⟨o.coeffs, Q.degree⟩) := by
  unfold recompute CPoly.recompute_degree
  rw [get_zero H.at_, H.deg]
  simp only [recLoop_eq H.at_, bind_assoc, ok_bind]

theorem recompute_coeffs (P : CPoly α) : Sim (CPoly.recompute_degree O P) (CPoly.recompute_degree O P) fun Q R => Q = R ∧ Q.coeffs = P.coeffs := by
  unfold CPoly.recompute_degree
  exact Sim.same fun _ => Sim.same fun _ => Sim.same fun _ => ⟨rfl, rfl⟩

theorem recompute_sim {h : Heap α} {o : Obj} {P : CPoly α} (H : Has h o P) :
    Sim (recompute O h o) (CPoly.recompute_degree O P) fun o' Q => Q.coeffs = P.coeffs ∧ o'.coeffs = o.coeffs ∧ o'.degree = Q.degree := by
  rw [recompute_eq H]
  conv => arg 2; rw [← bind_pure (CPoly.recompute_degree O P)]
  exact (recompute_coeffs P).bind fun Q R h => by
    obtain ⟨rfl, h⟩ := h
    exact ⟨h, rfl, rfl⟩

/-- The last step of most functions. -/
theorem finish_sim {h g : Heap α} {p n d : Nat} {cs : List α} (H : Own h g p cs n) :
    Sim (recompute O g ⟨p, d⟩ >>= fun o => ok (g, o)) (CPoly.recompute_degree O ⟨d, cs⟩) fun r P => Fresh h r P n := by
  conv => arg 2; rw [← bind_pure (CPoly.recompute_degree O _)]
  refine (recompute_sim (P := ⟨d, cs⟩) ⟨H.at_, rfl⟩).bind fun o Q ⟨h1, h2, h3⟩ => ?_
  exact ⟨⟨H.fr, h2 ▸ H.ge, by rw [h2, h1]; exact H.at_⟩, h3⟩

theorem ctor_eq (h : Heap α) : ctor O inv h = ok (h ++ [some [inv]], ⟨h.length, 0⟩) := by
  unfold ctor
  rw [alloc_eq, ok_bind]
  have := put_eq (own_alloc (O := O) h 1).at_ 0 inv
  rw [Nat.cast_zero] at this
  rw [this]
  simp [CPoly.new, wr]

theorem const_sim (h : Heap α) (c : α) : Sim (const O h c) (CPoly.const O c) fun r P => Fresh h r P 1 := by
  unfold const CPoly.const
  rw [alloc_eq, ok_bind]
  have := put_eq (own_alloc (O := O) h 1).at_ 0 c
  rw [Nat.cast_zero] at this
  rw [this]
  have e : wr (CPoly.new O 1) 0 c = ok [c] := by simp [CPoly.new, wr]
  rw [e, ok_bind, ok_bind]
  have := finish_sim (O := O) (d := 0) (cs := [c]) (p := h.length) (h := h) (g := (h ++ [some [c]])) (n := 1)
    ⟨(Fr.refl h).app _, le_rfl, by simp⟩
  simpa using this

theorem copyLoop_sim {h g : Heap α} {p n src lo hi : Nat} {cs A : List α} (H : Own h g p cs n) (hs : h[src]? = some (some A)) :
    Sim (copyLoop g src p lo hi) (forUp lo hi cs fun i cs => Spffl.store cs i (rd A i)) fun g' cs' => Own h g' p cs' n := by
  unfold copyLoop
  exact sim_forUp H fun i a b H => store_sim H i (get_eq (H.fr.old hs) i)

theorem copy_sim {h : Heap α} {a : Obj} {A : CPoly α} (ha : Has h a A) : Sim (copy O h a) (CPoly.copy O A) fun r P => Fresh h r P 1 := by
  unfold copy CPoly.copy
  rw [alloc_eq, ok_bind, ha.deg]
  exact (copyLoop_sim (own_alloc h _) ha.at_).bind fun g cs H => ⟨H, rfl⟩

/-- The frame of the functions that leave the array of the default constructor behind. -/
theorem Fresh.leak {h : Heap α} {r : Heap α × Obj} {P : CPoly α} {n : Nat} {c : List α} (F : Fresh (h ++ [some c]) r P n) :
    Fresh h r P (n + 1) :=
  ⟨⟨by have := ((Fr.refl h).app c).trans F.own.fr; rwa [show 0 + 1 + n = n + 1 by omega] at this,
    by have := F.own.ge; simp at this; omega, F.own.at_⟩, F.deg⟩

theorem add_sim {h : Heap α} {a b : Obj} {A B : CPoly α} (ha : Has h a A) (hb : Has h b B) :
    Sim (add O inv h a b) (CPoly.add O A B) fun r P => Fresh h r P 2 := by
  unfold add CPoly.add
  rw [ctor_eq, ok_bind, ha.deg, hb.deg]
  have ha' := ha.fr ((Fr.refl h).app [inv])
  have hb' := hb.fr ((Fr.refl h).app [inv])
  split
  · rw [alloc_eq, ok_bind]
    refine Sim.bind (sim_forUp (own_alloc _ _) fun i g cs H => store_sim H i ?_) fun g cs H => ?_
    · rw [get_eq (H.fr.old ha'.at_), get_eq (H.fr.old hb'.at_)]
    · exact (copyLoop_sim H hb'.at_).bind fun g cs H => (finish_sim H).mono fun _ _ F => F.leak
  · rw [alloc_eq, ok_bind]
    refine Sim.bind (sim_forUp (own_alloc _ _) fun i g cs H => store_sim H i ?_) fun g cs H => ?_
    · rw [get_eq (H.fr.old ha'.at_), get_eq (H.fr.old hb'.at_)]
    · exact (copyLoop_sim H ha'.at_).bind fun g cs H => (finish_sim H).mono fun _ _ F => F.leak

theorem sub_sim {h : Heap α} {a b : Obj} {A B : CPoly α} (ha : Has h a A) (hb : Has h b B) :
    Sim (sub O inv h a b) (CPoly.sub O A B) fun r P => Fresh h r P 2 := by
  unfold sub CPoly.sub
  rw [ctor_eq, ok_bind, ha.deg, hb.deg]
  have ha' := ha.fr ((Fr.refl h).app [inv])
  have hb' := hb.fr ((Fr.refl h).app [inv])
  split
  · rw [alloc_eq, ok_bind]
    refine Sim.bind (sim_forUp (own_alloc _ _) fun i g cs H => store_sim H i ?_) fun g cs H => ?_
    · rw [get_eq (H.fr.old ha'.at_), get_eq (H.fr.old hb'.at_)]
    · refine Sim.bind (sim_forUp H fun i g cs H => store_sim H i ?_) fun g cs H => (finish_sim H).mono fun _ _ F => F.leak
      rw [get_eq (H.fr.old hb'.at_)]
  · rw [alloc_eq, ok_bind]
    refine Sim.bind (sim_forUp (own_alloc _ _) fun i g cs H => store_sim H i ?_) fun g cs H => ?_
    · rw [get_eq (H.fr.old ha'.at_), get_eq (H.fr.old hb'.at_)]
    · exact (copyLoop_sim H ha'.at_).bind fun g cs H => (finish_sim H).mono fun _ _ F => F.leak

theorem neg_sim {h : Heap α} {a : Obj} {A : CPoly α} (ha : Has h a A) :
    Sim (neg O inv h a) (CPoly.neg O A) fun r P => Fresh h r P 2 := by
  unfold neg CPoly.neg
  rw [ctor_eq, ok_bind, ha.deg, alloc_eq, ok_bind]
  have ha' := ha.fr ((Fr.refl h).app [inv])
  refine Sim.bind (sim_forUp (own_alloc _ _) fun i g cs H => store_sim H i ?_) fun g cs H => ?_
  · rw [get_eq (H.fr.old ha'.at_)]
  · exact Fresh.leak (c := [inv]) ⟨H, rfl⟩

theorem mul_sim {h : Heap α} {a b : Obj} {A B : CPoly α} (ha : Has h a A) (hb : Has h b B) :
    Sim (mul O inv h a b) (CPoly.mul O A B) fun r P => Fresh h r P 2 := by
  unfold mul CPoly.mul
  rw [ctor_eq, ok_bind, ha.deg, hb.deg, alloc_eq, ok_bind]
  have ha' := ha.fr ((Fr.refl h).app [inv])
  have hb' := hb.fr ((Fr.refl h).app [inv])
  have H0 := own_alloc (O := O) (h ++ [some [inv]]) (A.degree + B.degree + 1)
  refine Sim.eqv (get_zero (H0.fr.old ha'.at_)) fun c0 => Sim.same fun zero => ?_
  refine Sim.bind (sim_forUp H0 fun i g cs H => store_sim H i rfl) fun g cs H => ?_
  refine Sim.bind (sim_forUp H fun i g cs H => sim_forUp H fun j g cs H => ?_) fun g cs H => (finish_sim H).mono fun _ _ F => F.leak
  unfold mulAcc CPoly.mulAcc
  rw [get_eq (H.fr.old ha'.at_), get_eq (H.fr.old hb'.at_), get_eq H.at_]
  exact Sim.same fun x => Sim.same fun y => Sim.same fun m => Sim.same fun c => Sim.same fun s => put_sim H _ s

theorem smul_sim {h : Heap α} {a : Obj} {A : CPoly α} (ha : Has h a A) (c : α) :
    Sim (smul O h a c) (CPoly.smul O A c) fun r P => Fresh h r P 1 := by
  unfold smul CPoly.smul
  refine (copy_sim ha).bind fun r P F => ?_
  rw [F.deg]
  refine Sim.bind (sim_forUp F.own fun i g cs H => store_sim H i ?_) fun g cs H => finish_sim H
  rw [get_eq H.at_]

theorem cmpLoop_eq {h : Heap α} {a b : Nat} {A B : List α} (ha : h[a]? = some (some A)) (hb : h[b]? = some (some B)) :
    ∀ n, cmpLoop O h a b n = CPoly.cmpLoop O A B n
  | 0 => rfl
  | n + 1 => by
    unfold cmpLoop CPoly.cmpLoop
    rw [get_eq ha, get_eq hb]
    simp only [cmpLoop_eq ha hb n]

theorem eq_eq {h : Heap α} {a b : Obj} {A B : CPoly α} (ha : Has h a A) (hb : Has h b B) : eq O h a b = CPoly.eq O A B := by
  unfold eq CPoly.eq CPoly.cmp
  rw [ha.deg, hb.deg, cmpLoop_eq ha.at_ hb.at_]
  split
  · rfl
  · split <;> rfl

theorem Fresh.kill {h : Heap α} {r : Heap α × Obj} {P : CPoly α} {n : Nat} (F : Fresh h r P (n + 1)) :
    dtor r.1 r.2 = ok (r.1.set r.2.coeffs none) ∧ Fr h (r.1.set r.2.coeffs none) n :=
  ⟨delete_eq F.own.at_, F.own.fr.del F.own.ge F.own.at_⟩

theorem eqConst_sim {h : Heap α} {a : Obj} {A : CPoly α} (ha : Has h a A) (c : α) :
    Sim (eqConst O h a c) (CPoly.eqConst O A c) fun r b => r.2 = b ∧ Fr h r.1 0 := by
  unfold eqConst CPoly.eqConst
  refine (const_sim h c).bind fun r P F => ?_
  rw [eq_eq (ha.fr F.own.fr) F.has]
  conv => arg 2; rw [← bind_pure (CPoly.eq O A P)]
  refine Sim.same fun b => ?_
  rw [F.kill.1, ok_bind]
  exact ⟨rfl, F.kill.2⟩

theorem psub_sim {h : Heap α} {a : Obj} {A : CPoly α} (ha : Has h a A) (v : Int) :
    Sim (psub O h a v) (CPoly.psub O A v) fun r P => Fresh h r P 1 := by
  unfold psub CPoly.psub
  exact Sim.eqv (get_zero ha.at_) fun c => Sim.same fun c0 => const_sim h c0

/-- The two arrays of a division: not in `h`, different, and with `n` arrays not in `h` altogether. -/
structure Two (h g : Heap α) (p q : Nat) (s : List α × List α) (n : Nat) : Prop where
  fr : Fr h g n
  gep : h.length ≤ p
  geq : h.length ≤ q
  ne : p ≠ q
  atp : g[p]? = some (some s.1)
  atq : g[q]? = some (some s.2)

theorem Two.fresh {h g f : Heap α} {p q n m : Nat} {s : List α × List α} (H : Two h g p q s n) (F : Fr g f m) : Two h f p q s (n + m) :=
  ⟨H.fr.trans F, H.gep, H.geq, H.ne, F.old H.atp, F.old H.atq⟩

theorem two_put1 {h g : Heap α} {p q n : Nat} {s : List α × List α} (H : Two h g p q s n) (i : Nat) (x : α) :
    Sim (put g p (i : Int) x) (wr s.1 i x) fun g' c => Two h g' p q (c, s.2) n ∧
      ∀ r, r ≠ p → g'[r]? = g[r]? := by
  rw [put_eq H.atp]
  unfold wr
  split
  · rw [ok_bind, sim_ok]
    exact ⟨⟨H.fr.set H.gep H.atp _, H.gep, H.geq, H.ne, by rw [List.getElem?_set_self (lt_of H.atp)],
      by rw [List.getElem?_set_ne H.ne]; exact H.atq⟩, fun r hr => List.getElem?_set_ne (Ne.symm hr)⟩
  · trivial

theorem two_put2 {h g : Heap α} {p q n : Nat} {s : List α × List α} (H : Two h g p q s n) (i : Nat) (x : α) :
    Sim (put g q (i : Int) x) (wr s.2 i x) fun g' c => Two h g' p q (s.1, c) n ∧ ∀ r, r ≠ q → g'[r]? = g[r]? := by
  rw [put_eq H.atq]
  unfold wr
  split
  · rw [ok_bind, sim_ok]
    exact ⟨⟨H.fr.set H.geq H.atq _, H.gep, H.geq, H.ne, by rw [List.getElem?_set_ne (Ne.symm H.ne)]; exact H.atp,
      by rw [List.getElem?_set_self (lt_of H.atq)]⟩, fun r hr => List.getElem?_set_ne (Ne.symm hr)⟩
  · trivial

theorem divStep_sim {h g : Heap α} {p q n : Nat} {s : List α × List α} {b : Obj} {B : CPoly α} (H : Two h g p q s n) (hb : Has h b B)
    (dlinv : α) (shift : Nat) :
    Sim (divStep O b dlinv p q shift g) (CPoly.divStep O B dlinv shift s) fun g' s' => Two h g' p q s' n := by
  unfold divStep CPoly.divStep
  rw [get_eq H.atq, hb.deg]
  refine Sim.same fun rl => Sim.same fun mlt => (smul_sim (hb.fr H.fr) mlt).bind fun dm D F => ?_
  have hne1 : dm.2.coeffs ≠ p := fun e => by have := F.own.ge; have := lt_of H.atp; omega
  have hne2 : dm.2.coeffs ≠ q := fun e => by have := F.own.ge; have := lt_of H.atq; omega
  refine (two_put1 (H.fresh F.own.fr) shift mlt).bind fun g1 c ⟨H1, k1⟩ => ?_
  unfold CPoly.subShift
  rw [F.deg]
  have D1 : g1[dm.2.coeffs]? = some (some D.coeffs) := by rw [k1 _ hne1]; exact F.own.at_
  refine Sim.bind (Q := fun g' r => Two h g' p q (c, r) (n + 1) ∧ g'[dm.2.coeffs]? = some (some D.coeffs))
    (sim_forUp (⟨H1, D1⟩ : Two h g1 p q (c, s.2) (n + 1) ∧ _) fun i g' r ⟨H2, D2⟩ => ?_) fun g' r ⟨H2, D2⟩ => ?_
  · unfold store Spffl.store
    rw [get_eq H2.atq, get_eq D2]
    exact Sim.same fun x => (two_put2 H2 i x).mono fun g'' r' ⟨H3, k3⟩ => ⟨H3, by rw [k3 _ hne2]; exact D2⟩
  · unfold dtor
    rw [delete_eq D2, sim_ok]
    refine ⟨H2.fr.del ?_ D2, H2.gep, H2.geq, H2.ne, by rw [List.getElem?_set_ne hne1]; exact H2.atp,
      by rw [List.getElem?_set_ne hne2]; exact H2.atq⟩
    exact H.fr.le.trans F.own.ge

/-- The division leaves the two results and one array that nobody owns. -/
theorem longDiv_sim {h : Heap α} {a b : Obj} {A B : CPoly α} (ha : Has h a A) (hb : Has h b B) (zero : α) :
    Sim (longDiv O inv zero h a b) (CPoly.longDiv O zero A B) fun r s =>
      Two h r.1 r.2.1.coeffs r.2.2.coeffs (s.1.coeffs, s.2.coeffs) 3 ∧ r.2.1.degree = s.1.degree ∧ r.2.2.degree = s.2.degree := by
  unfold longDiv CPoly.longDiv
  rw [ctor_eq, ok_bind, alloc_eq, ok_bind, ha.deg, hb.deg]
  set h1 := h ++ [some [inv]] with hh1
  have F1 : Fr h h1 1 := (Fr.refl h).app _
  have O1 := own_alloc (O := O) h1 (A.degree - B.degree + 1)
  set h2 := h1 ++ [some (CPoly.new O (A.degree - B.degree + 1))] with hh2
  have F2 : Fr h h2 2 := F1.trans O1.fr
  refine (copy_sim (ha.fr F2)).bind fun r P F => ?_
  have T : Two h r.1 h1.length r.2.coeffs (CPoly.new O (A.degree - B.degree + 1), P.coeffs) 3 :=
    ⟨F2.trans F.own.fr, F1.le, F2.le.trans F.own.ge, fun e => by
      have := F.own.ge; have := lt_of O1.at_; omega, F.own.fr.old O1.at_, F.own.at_⟩
  refine Sim.eqv (get_eq (T.fr.old hb.at_) _) fun lead => Sim.same fun rc => ?_
  cases rc with
  | none => trivial
  | some dlinv =>
    refine Sim.bind (sim_forDown T fun i g s H => divStep_sim H hb dlinv i) fun g s H => ?_
    refine Sim.eqv (get_eq H.atp _) fun top => Sim.same fun e => ?_
    cases e with
    | true => trivial
    | false =>
      refine (recompute_sim (P := ⟨P.degree, s.2⟩) ⟨H.atq, F.deg⟩).bind fun o Q ⟨e1, e2, e3⟩ => ?_
      refine ⟨?_, rfl, e3⟩
      show Two h g h1.length o.coeffs (s.1, Q.coeffs) 3
      rw [e1, e2]
      exact H

/-- Object `o` may lose its array and get another one; the rest of the heap is as it was and has `n` more arrays. -/
structure Upd (h : Heap α) (o : Obj) (r : Heap α × Obj) (P : CPoly α) : Prop where
  le : h.length ≤ r.1.length
  eq : ∀ q, q < h.length → q ≠ o.coeffs → r.1[q]? = h[q]?
  live : live r.1 = live h
  new : r.2.coeffs = o.coeffs ∨ h.length ≤ r.2.coeffs
  has : Has r.1 r.2 P

theorem assign_sim {h : Heap α} {o t : Obj} {b : List α} {T : CPoly α} (ho : h[o.coeffs]? = some (some b)) (ht : Has h t T)
    (hne : t.coeffs ≠ o.coeffs) : Sim (assign O h o t false) (CPoly.copy O T) fun r P => Upd h o r P ∧ h.length ≤ r.2.coeffs := by
  unfold assign CPoly.copy
  rw [delete_eq ho, ok_bind, alloc_eq, ok_bind, ht.deg]
  have hs : (h.set o.coeffs none)[t.coeffs]? = some (some T.coeffs) := by
    rw [List.getElem?_set_ne (Ne.symm hne)]; exact ht.at_
  refine (copyLoop_sim (own_alloc _ _) hs).bind fun g cs H => ?_
  rw [sim_ok]
  have hge : h.length ≤ (h.set o.coeffs none).length := by simp
  have hle := H.fr.le
  rw [List.length_set] at hle
  refine ⟨⟨hle, fun q hq hqo => ?_, ?_, Or.inr hge, H.at_, rfl⟩, hge⟩
  · rw [H.fr.eq q (by simpa using hq), List.getElem?_set_ne (Ne.symm hqo)]
  · show live g = live h
    have := live_del ho; have := H.fr.live; omega

theorem setCoeff_sim {h : Heap α} {o : Obj} {P : CPoly α} (ho : Has h o P) (pos : Int) (c : α) :
    Sim (setCoeff O h o pos c) (CPoly.set_coeff O P pos c) fun r Q => Upd h o r Q := by
  unfold setCoeff CPoly.set_coeff
  split
  · trivial
  refine Sim.eqv (get_zero ho.at_) fun c0 => Sim.same fun zero => ?_
  rw [ho.deg]
  split
  · unfold CPoly.set_coeff_grow
    rw [alloc_eq, ok_bind]
    refine (copyLoop_sim (own_alloc _ _) ho.at_).bind fun g cs H => ?_
    refine Sim.bind (sim_forUp H fun i g cs H => store_sim H i rfl) fun g cs H => ?_
    refine (put_sim H _ c).bind fun g cs H => ?_
    have ho' := H.fr.old ho.at_
    have hne : o.coeffs ≠ h.length := by have := lt_of ho.at_; omega
    rw [delete_eq ho', ok_bind]
    have key : ∀ (o' : Obj) (Q : CPoly α), o'.coeffs = h.length → Q.coeffs = cs → o'.degree = Q.degree →
        Upd h o (g.set o.coeffs none, o') Q := by
      intro o' Q e1 e2 e3
      refine ⟨by simpa using H.fr.le, fun q hq hqo => ?_, ?_, Or.inr e1.ge, ?_, e3⟩
      · rw [List.getElem?_set_ne (Ne.symm hqo), H.fr.eq q hq]
      · have := live_del ho'; have := H.fr.live; simp only at *; omega
      · simp only
        rw [e1, e2, List.getElem?_set_ne hne]; exact H.at_
    refine Sim.same fun e => ?_
    cases e with
    | true =>
      simp only [if_true]
      conv => arg 2; rw [← bind_pure (CPoly.recompute_degree O _)]
      refine (recompute_sim (P := ⟨pos.toNat, cs⟩) ⟨by
        simp only; rw [List.getElem?_set_ne hne]; exact H.at_, rfl⟩).bind fun o' Q ⟨e1, e2, e3⟩ => ?_
      exact key o' Q e2 e1 e3
    | false => exact key _ _ rfl rfl rfl
  · unfold CPoly.set_coeff_in
    rw [put_eq ho.at_]
    unfold wr
    split
    · simp only [ok_bind]
      have hlt := lt_of ho.at_
      have key : ∀ (o' : Obj) (Q : CPoly α), o'.coeffs = o.coeffs → Q.coeffs = P.coeffs.set pos.toNat c → o'.degree = Q.degree →
          Upd h o (h.set o.coeffs (some (P.coeffs.set pos.toNat c)), o') Q := by
        intro o' Q e1 e2 e3
        refine ⟨by simp, fun q hq hqo => List.getElem?_set_ne (Ne.symm hqo), live_set ho.at_ _, Or.inl e1, ?_, e3⟩
        simp only
        rw [e1, e2, List.getElem?_set_self hlt]
      split
      · refine Sim.same fun e => ?_
        cases e with
        | true =>
          simp only [if_true]
          conv => arg 2; rw [← bind_pure (CPoly.recompute_degree O _)]
          refine (recompute_sim (P := ⟨P.degree, P.coeffs.set pos.toNat c⟩) ⟨by rw [List.getElem?_set_self hlt], ho.deg⟩).bind
            fun o' Q ⟨e1, e2, e3⟩ => key o' Q e2 e1 e3
        | false => exact key _ _ rfl rfl ho.deg
      · exact key _ _ rfl rfl ho.deg
    · trivial

end PolyStore
end Spffl
