import Verif.Proof.Expr2
import Verif.Proof.Scan
import Verif.Model.ExprInst

/-!
# The scalar evaluator over a field, for every argument list; residues and rationals
-/

namespace Spffl.Expr
open Res

section Ring
variable {α K : Type} [CommRing K] {U : Prop}

open Classical in
/-- The value of an expression that may be a comparison: an element of the ring, or a truth value. -/
noncomputable def denSQ (S : Sem K) (lit : String → Option K) (litI : String → Option Int) (ord : K → K → Prop) : Tree → Option (K ⊕ Bool)
  | .bin .eq t u => do let x ← denS S lit litI t; let y ← denS S lit litI u; some (.inr (decide (x = y)))
  | .bin .ne t u => do let x ← denS S lit litI t; let y ← denS S lit litI u; some (.inr (decide (x ≠ y)))
  | .bin .lt t u => do let x ← denS S lit litI t; let y ← denS S lit litI u; some (.inr (decide (ord x y)))
  | .bin .gt t u => do let x ← denS S lit litI t; let y ← denS S lit litI u; some (.inr (decide (ord y x)))
  | .bin .le t u => do let x ← denS S lit litI t; let y ← denS S lit litI u; some (.inr (decide (¬ ord y x)))
  | .bin .ge t u => do let x ← denS S lit litI t; let y ← denS S lit litI u; some (.inr (decide (¬ ord x y)))
  | t => (denS S lit litI t).map .inl

/-- An atom that holds a value or prints a truth value. -/
def RepQ (rep : α → K → Prop) (v : Atom α) : K ⊕ Bool → Prop
  | .inl x => ∃ a, v = .val a ∧ rep a x
  | .inr b => v = .int (if b then 1 else 0)

theorem denS_of_denSQ {lit : String → Option K} {litI : String → Option Int} {S : Sem K} {ord : K → K → Prop} (t : Tree) :
    (∀ x, denSQ S lit litI ord t = some (.inl x) → denS S lit litI t = some x) ∧
    ((∀ x, denSQ S lit litI ord t ≠ some (.inl x)) → denS S lit litI t = none) := by
  have base : denSQ S lit litI ord t = (denS S lit litI t).map .inl →
      (∀ x, denSQ S lit litI ord t = some (.inl x) → denS S lit litI t = some x) ∧
      ((∀ x, denSQ S lit litI ord t ≠ some (.inl x)) → denS S lit litI t = none) := by
    intro e
    rw [e]
    cases denS S lit litI t with
    | none => simp
    | some y => simp
  have cmp : ∀ (d : Option (K ⊕ Bool)), denSQ S lit litI ord t = d → (∀ x, d ≠ some (.inl x)) → denS S lit litI t = none →
      (∀ x, denSQ S lit litI ord t = some (.inl x) → denS S lit litI t = some x) ∧
      ((∀ x, denSQ S lit litI ord t ≠ some (.inl x)) → denS S lit litI t = none) := by
    intro d e h1 h2
    exact ⟨fun x hx => absurd (e ▸ hx) (h1 x), fun _ => h2⟩
  have never : ∀ (d e : Option K) (f : K → K → Bool) (x : K),
      (d >>= fun x => e >>= fun y => (some (Sum.inr (f x y)) : Option (K ⊕ Bool))) ≠ some (.inl x) := by
    intro d e f x h
    cases d with
    | none => cases h
    | some a =>
      cases e with
      | none => cases h
      | some b => cases h
  cases t with
  | lit s => exact base rfl
  | un o t => exact base rfl
  | bin o t u =>
    cases o with
    | eq => exact cmp _ rfl (never _ _ fun x y => _) rfl
    | ne => exact cmp _ rfl (never _ _ fun x y => _) rfl
    | lt => exact cmp _ rfl (never _ _ fun x y => _) rfl
    | gt => exact cmp _ rfl (never _ _ fun x y => _) rfl
    | le => exact cmp _ rfl (never _ _ fun x y => _) rfl
    | ge => exact cmp _ rfl (never _ _ fun x y => _) rfl
    | _ => exact base rfl

theorem denS_denSQ {lit : String → Option K} {litI : String → Option Int} {S : Sem K} {ord : K → K → Prop} {t : Tree}
    (h : Arith scalarG t) : denSQ S lit litI ord t = (denS S lit litI t).map .inl := by
  cases h with
  | lit _ => rfl
  | neg _ => rfl
  | pre hs _ => simp [scalarG] at hs
  | mul hs _ _ =>
    simp only [scalarG, List.mem_cons, Prod.mk.injEq, List.not_mem_nil, or_false] at hs
    rcases hs with ⟨_, rfl⟩ | ⟨_, rfl⟩ | ⟨_, rfl⟩ | ⟨_, rfl⟩ <;> rfl
  | add hs _ _ =>
    simp only [addTable, List.mem_cons, Prod.mk.injEq, List.not_mem_nil, or_false] at hs
    rcases hs with ⟨_, rfl⟩ | ⟨_, rfl⟩ <;> rfl
  | exp _ _ => rfl

variable {O : EOps α} {zero one : α} {scan : String → Res α} {scanI : String → Res Int}

theorem reads_bin {rep : α → K → Prop} {lit : String → Option K} {litI : String → Option Int} {o : Op} {t u : Tree}
    (ho : o ≠ .exp) (R : Reads U rep scan scanI lit litI (.bin o t u)) :
    Reads U rep scan scanI lit litI t ∧ Reads U rep scan scanI lit litI u := by
  have e : (Tree.bin o t u).lits false = t.lits false ++ u.lits false := by simp [Tree.lits, ho]
  exact ⟨⟨fun s h => R.val s (by rw [e]; simp [h]), fun s h => R.int s (by rw [e]; simp [h])⟩,
    ⟨fun s h => R.val s (by rw [e]; simp [h]), fun s h => R.int s (by rw [e]; simp [h])⟩⟩

/-- One comparison. -/
theorem cmp_right {rep : α → K → Prop} {S : Sem K} {ord : K → K → Prop} {lit : String → Option K} {litI : String → Option Int}
    {o : Op} {t u : Tree} {f : α → α → Res Bool} {g : K → K → Bool} (ho : o ≠ .exp)
    (hf : ∀ a b, scalarBin O zero one o (.val a) (.val b) = (f a b >>= fun c => ok (ofBool c)))
    (hi : ∀ n v, scalarBin O zero one o (.int n) v = .throw) (hi' : ∀ a n, scalarBin O zero one o (.val a) (.int n) = .throw)
    (hfg : ∀ a b x y, rep a x → rep b y → (f a b).Sat U fun c => c = true ↔ g x y = true)
    (h1 : Right U (eval (scalar O zero one scan scanI) false t) (denSQ S lit litI ord t) (RepQ rep))
    (h2 : Right U (eval (scalar O zero one scan scanI) false u) (denSQ S lit litI ord u) (RepQ rep)) :
    Right U (eval (scalar O zero one scan scanI) false (.bin o t u))
      (denS S lit litI t >>= fun x => denS S lit litI u >>= fun y => some (.inr (g x y))) (RepQ rep) := by
  have ev : eval (scalar O zero one scan scanI) false (.bin o t u) =
      (eval (scalar O zero one scan scanI) false t >>= fun v => eval (scalar O zero one scan scanI) false u >>= fun w =>
        scalarBin O zero one o v w) := by simp [eval, scalar, ho]
  rw [ev]
  have q1 := denS_of_denSQ (S := S) (lit := lit) (litI := litI) (ord := ord) t
  have q2 := denS_of_denSQ (S := S) (lit := lit) (litI := litI) (ord := ord) u
  -- the second operand, whatever the first was, ends in a throw unless both are values
  have key : ∀ v, (∀ w, scalarBin O zero one o v w = .throw) →
      (eval (scalar O zero one scan scanI) false u >>= fun w => scalarBin O zero one o v w).Throws U := by
    intro v hv
    cases hd : denSQ S lit litI ord u with
    | none => rw [hd] at h2; exact Throws.bind h2
    | some y =>
      rw [hd] at h2
      refine Sat.throws_bind h2 fun w _ => ?_
      rw [hv w]
      exact .inl rfl
  cases hd1 : denSQ S lit litI ord t with
  | none =>
    rw [hd1] at h1
    rw [q1.2 (by rw [hd1]; simp)]
    exact Throws.bind h1
  | some x =>
    rw [hd1] at h1
    cases x with
    | inr b =>
      rw [q1.2 (by rw [hd1]; simp)]
      refine Sat.throws_bind h1 fun v hv => ?_
      have hv : v = .int _ := hv
      subst hv
      exact key _ (hi _)
    | inl x =>
      rw [q1.1 x hd1]
      cases hd2 : denSQ S lit litI ord u with
      | none =>
        rw [q2.2 (by rw [hd2]; simp)]
        rw [hd2] at h2
        exact Sat.throws_bind h1 fun v _ => Throws.bind h2
      | some y =>
        rw [hd2] at h2
        cases y with
        | inr b =>
          rw [q2.2 (by rw [hd2]; simp)]
          refine Sat.throws_bind h1 fun v hv => ?_
          obtain ⟨a, rfl, _⟩ := hv
          refine Sat.throws_bind h2 fun w hw => ?_
          have hw : w = .int _ := hw
          subst hw
          rw [hi']
          exact .inl rfl
        | inl y =>
          rw [q2.1 y hd2]
          show Right U _ (some (Sum.inr (g x y))) _
          refine Sat.bind h1 fun v hv => ?_
          obtain ⟨a, rfl, ha⟩ := hv
          refine Sat.bind h2 fun w hw => ?_
          obtain ⟨b, rfl, hb⟩ := hw
          rw [hf]
          refine Sat.bind (hfg a b x y ha hb) fun c hc => ?_
          have : c = g x y := by
            cases c <;> cases hg : g x y <;> simp_all
          rw [this]
          rfl

theorem evalQ_right {rep : α → K → Prop} {S : Sem K} {ord : K → K → Prop} (H : RRef U O rep S ord) (h0 : rep zero 0) (h1 : rep one 1)
    {lit : String → Option K} {litI : String → Option Int} {L : Lvl} {t : Tree} {ts : List String}
    (hd : Derives scalarG L t ts) (R : Reads U rep scan scanI lit litI t) :
    Right U (eval (scalar O zero one scan scanI) false t) (denSQ S lit litI ord t) (RepQ rep) := by
  have arith : ∀ {t}, Arith scalarG t → Reads U rep scan scanI lit litI t →
      Right U (eval (scalar O zero one scan scanI) false t) (denSQ S lit litI ord t) (RepQ rep) := by
    intro t ht R
    rw [denS_denSQ ht]
    have := eval_right H h0 h1 ht R
    cases hd : denS S lit litI t with
    | none => rw [hd] at this; exact this
    | some x => rw [hd] at this; exact this
  classical
  induction hd with
  | ofE h ih => exact arith (derives_arith h (by simp) (by simp)) R
  | ofC h ih => exact ih R
  | @ord s o t u a b hs _ hu ih1 ih2 =>
    simp only [scalarG, List.mem_cons, Prod.mk.injEq, List.not_mem_nil, or_false] at hs
    rcases hs with ⟨_, rfl⟩ | ⟨_, rfl⟩ | ⟨_, rfl⟩ | ⟨_, rfl⟩
    · obtain ⟨R1, R2⟩ := reads_bin (by simp) R
      refine cmp_right (o := .lt) (f := O.lt) (g := fun x y => decide (ord x y)) (by simp) (fun _ _ => rfl) (fun _ _ => rfl) (fun _ _ => rfl)
        (fun a b x y ha hb => (H.lt ha hb).mono fun c hc => by rw [hc]; simp) (ih1 R1) (ih2 R2)
    · obtain ⟨R1, R2⟩ := reads_bin (by simp) R
      refine cmp_right (o := .le) (f := O.le) (g := fun x y => decide (¬ ord y x)) (by simp) (fun _ _ => rfl) (fun _ _ => rfl) (fun _ _ => rfl)
        (fun a b x y ha hb => (H.le ha hb).mono fun c hc => by rw [hc]; simp) (ih1 R1) (ih2 R2)
    · obtain ⟨R1, R2⟩ := reads_bin (by simp) R
      refine cmp_right (o := .gt) (f := O.gt) (g := fun x y => decide (ord y x)) (by simp) (fun _ _ => rfl) (fun _ _ => rfl) (fun _ _ => rfl)
        (fun a b x y ha hb => (H.gt ha hb).mono fun c hc => by rw [hc]; simp) (ih1 R1) (ih2 R2)
    · obtain ⟨R1, R2⟩ := reads_bin (by simp) R
      refine cmp_right (o := .ge) (f := O.ge) (g := fun x y => decide (¬ ord x y)) (by simp) (fun _ _ => rfl) (fun _ _ => rfl) (fun _ _ => rfl)
        (fun a b x y ha hb => (H.ge ha hb).mono fun c hc => by rw [hc]; simp) (ih1 R1) (ih2 R2)
  | @eqs s o t u a b hs _ hu ih1 ih2 =>
    simp only [scalarG, List.mem_cons, Prod.mk.injEq, List.not_mem_nil, or_false] at hs
    have ho : o = .eq ∨ o = .ne := by rcases hs with ⟨_, h⟩ | ⟨_, h⟩ | ⟨_, h⟩ <;> simp [h]
    rcases ho with rfl | rfl
    · obtain ⟨R1, R2⟩ := reads_bin (by simp) R
      refine cmp_right (o := .eq) (f := O.eq) (g := fun x y => decide (x = y)) (by simp) (fun _ _ => rfl) (fun _ _ => rfl) (fun _ _ => rfl)
        (fun a b x y ha hb => (H.eq ha hb).mono fun c hc => by rw [hc]; simp) (ih1 R1) (ih2 R2)
    · obtain ⟨R1, R2⟩ := reads_bin (by simp) R
      refine cmp_right (o := .ne) (f := O.ne) (g := fun x y => decide (x ≠ y)) (by simp) (fun _ _ => rfl) (fun _ _ => rfl) (fun _ _ => rfl)
        (fun a b x y ha hb => (H.ne ha hb).mono fun c hc => by rw [hc]; simp) (ih1 R1) (ih2 R2)
  | lit h => exact arith (.lit h) R
  | paren _ _ h _ => exact arith (derives_arith h (by simp) (by simp)) R
  | ofP _ ih | ofU _ ih | ofF _ ih | ofT _ ih | pos _ ih => exact ih R
  | pow h h' _ _ => exact arith (.exp (derives_arith h (by simp) (by simp)) (derives_arith h' (by simp) (by simp))) R
  | neg h _ => exact arith (.neg (derives_arith h (by simp) (by simp))) R
  | pre hs _ _ => simp [scalarG] at hs
  | mul hs h h' _ _ => exact arith (.mul hs (derives_arith h (by simp) (by simp)) (derives_arith h' (by simp) (by simp))) R
  | add hs h h' _ _ => exact arith (.add hs (derives_arith h (by simp) (by simp)) (derives_arith h' (by simp) (by simp))) R

/-- The evaluator prints the value of an expression, and only that. -/
theorem parse_rright {rep : α → K → Prop} {S : Sem K} {ord : K → K → Prop} (H : RRef U O rep S ord) (h0 : rep zero 0) (h1 : rep one 1)
    {lit : String → Option K} {litI : String → Option Int} {t : Tree} {ts : List String}
    (hd : Derives scalarG .Q t ts) (R : Reads U rep scan scanI lit litI t) :
    Right U (parse (scalar O zero one scan scanI) ts) (denSQ S lit litI ord t) (fun out x => ∃ v, out = [v] ∧ RepQ rep v x) := by
  rw [parse_derives (scalar_fits O zero one scan scanI) hd]
  have := evalQ_right H h0 h1 hd R
  cases hq : denSQ S lit litI ord t with
  | none => rw [hq] at this; exact Throws.bind this
  | some x => rw [hq] at this; exact Sat.bind (P := fun v => RepQ rep v x) this fun v hv => ⟨v, rfl, hv⟩

theorem Right.safe {β V : Type} {r : Res β} {d : Option V} {P : β → V → Prop} (h : Right U r d P) :
    Safe U False r (fun b => ∃ x, P b x) := by
  cases d with
  | none =>
    rcases h with h | ⟨hu, h⟩
    · rw [h]; trivial
    · rw [h]; exact hu
  | some x =>
    cases r with
    | ok b => exact ⟨x, h⟩
    | throw => trivial
    | ub => exact h
    | timeout => exact h

/-- Values the evaluator meets. -/
def Inv (U : Prop) (rep : α → K → Prop) : Atom α → Prop
  | .val a => ∃ x, rep a x
  | .int n => InInt n ∧ (n = INT_MIN → U)

theorem scalar_rsafe {rep : α → K → Prop} {S : Sem K} {ord : K → K → Prop} (H : RRef U O rep S ord) (h0 : rep zero 0) (h1 : rep one 1)
    {Lt : String → Prop} (hs : ∀ s, Lt s → Safe U False (scan s) fun a => ∃ x, rep a x)
    (hi : ∀ s, Lt s → Safe U False (scanI s) fun n => InInt n ∧ (n = INT_MIN → U)) :
    OpsSafe U False (scalar O zero one scan scanI) Lt (Inv U rep) := by
  have b01 : ∀ b : Bool, Inv U rep (ofBool b : Atom α) := by
    intro b
    cases b
    · exact ⟨by unfold InInt; simp, fun h => by cases h⟩
    · exact ⟨by unfold InInt; simp, fun h => by cases h⟩
  have val : ∀ {r : Res α} {d : Option K}, Right U r d rep → Safe U False (r >>= fun c => ok (Atom.val c)) (Inv U rep) :=
    fun h => Safe.bind h.safe fun c _ hc => hc
  have cmp : ∀ {r : Res Bool} {P : Bool → Prop}, r.Sat U P → Safe U False (r >>= fun c => ok (ofBool c : Atom α)) (Inv U rep) := by
    intro r P h
    cases r with
    | ok b => exact b01 b
    | throw => trivial
    | ub => exact h
    | timeout => exact h
  refine ⟨fun s hl => ?_, fun s hl => ?_, fun o a ha => ?_, fun o a b ha hb => ?_⟩
  · exact Safe.bind (hs s hl) fun a _ ha => ha
  · exact Safe.bind (hi s hl) fun n _ hn => hn
  · cases o with
    | uminus =>
      cases a with
      | val a => obtain ⟨x, hx⟩ := ha; exact val (d := some (-x)) (H.neg hx)
      | int n => trivial
    | _ => cases a <;> trivial
  · cases a with
    | int n => cases o <;> trivial
    | val a =>
      obtain ⟨x, hx⟩ := ha
      cases b with
      | int n =>
        cases o with
        | exp => exact val (clo_exp_right H hx h0 h1 hb.1 hb.2)
        | _ => trivial
      | val b =>
        obtain ⟨y, hy⟩ := hb
        cases o with
        | plus => exact val (d := some (x + y)) (H.add hx hy)
        | minus => exact val (d := some (x - y)) (H.sub hx hy)
        | mul => exact val (d := some (x * y)) (H.mul hx hy)
        | div => exact val (H.div hx hy)
        | mod => exact val (H.mod hx hy)
        | eq => exact cmp (H.eq hx hy)
        | ne => exact cmp (H.ne hx hy)
        | lt => exact cmp (H.lt hx hy)
        | le => exact cmp (H.le hx hy)
        | gt => exact cmp (H.gt hx hy)
        | ge => exact cmp (H.ge hx hy)
        | _ => trivial

end Ring

section Field
variable {α K : Type} [Field K] {U : Prop}

open Classical in
/-- The value of an expression that may be a comparison: an element of the field, or a truth value. -/
noncomputable def denQ (lit : String → Option K) (litI : String → Option Int) (ord : K → K → Prop) : Tree → Option (K ⊕ Bool)
  | .bin .eq t u => do let x ← den lit litI t; let y ← den lit litI u; some (.inr (decide (x = y)))
  | .bin .ne t u => do let x ← den lit litI t; let y ← den lit litI u; some (.inr (decide (x ≠ y)))
  | .bin .lt t u => do let x ← den lit litI t; let y ← den lit litI u; some (.inr (decide (ord x y)))
  | .bin .gt t u => do let x ← den lit litI t; let y ← den lit litI u; some (.inr (decide (ord y x)))
  | .bin .le t u => do let x ← den lit litI t; let y ← den lit litI u; some (.inr (decide (¬ ord y x)))
  | .bin .ge t u => do let x ← den lit litI t; let y ← den lit litI u; some (.inr (decide (¬ ord x y)))
  | t => (den lit litI t).map .inl

theorem denSQ_field (lit : String → Option K) (litI : String → Option Int) (ord : K → K → Prop) (t : Tree) :
    denSQ (fieldSem K) lit litI ord t = denQ lit litI ord t := by
  cases t with
  | lit s => rfl
  | un o t => simp only [denSQ, denQ, denS_field]
  | bin o t u => cases o <;> simp only [denSQ, denQ, denS_field]

variable {O : EOps α} {zero one : α} {scan : String → Res α} {scanI : String → Res Int}

theorem parse_right {rep : α → K → Prop} {ord : K → K → Prop} (H : FRef U O rep ord) (h0 : rep zero 0) (h1 : rep one 1)
    {lit : String → Option K} {litI : String → Option Int} {t : Tree} {ts : List String}
    (hd : Derives scalarG .Q t ts) (R : Reads U rep scan scanI lit litI t) :
    Right U (parse (scalar O zero one scan scanI) ts) (denQ lit litI ord t) (fun out x => ∃ v, out = [v] ∧ RepQ rep v x) := by
  rw [← denSQ_field]
  exact parse_rright H.toRRef h0 h1 hd R

theorem scalar_safe {rep : α → K → Prop} {ord : K → K → Prop} (H : FRef U O rep ord) (h0 : rep zero 0) (h1 : rep one 1)
    {Lt : String → Prop} (hs : ∀ s, Lt s → Safe U False (scan s) fun a => ∃ x, rep a x)
    (hi : ∀ s, Lt s → Safe U False (scanI s) fun n => InInt n ∧ (n = INT_MIN → U)) :
    OpsSafe U False (scalar O zero one scan scanI) Lt (Inv U rep) := scalar_rsafe H.toRRef h0 h1 hs hi

end Field

/-! ### Residues -/

theorem intmod_fref {p : ℕ} [hp : Fact p.Prime] (hm : p ≤ 46341) :
    FRef False intmodOps (IntMod.Rep p) (fun x y : ZMod p => x.val < y.val) := by
  have C := IntMod.cops_ref hp.out.two_le hm
  have vlt : ∀ {a b : IntMod} {x y : ZMod p}, IntMod.Rep p a x → IntMod.Rep p b y → (a.residue < b.residue ↔ x.val < y.val) := by
    have key : ∀ {a : IntMod} {x : ZMod p}, IntMod.Rep p a x → a.residue = x.val := by
      intro a x h
      haveI : NeZero p := ⟨by have := h.pos; omega⟩
      have h1 := h.2.1
      have h2 := h.2.2.1
      rw [← h.2.2.2, ZMod.val_intCast, Int.emod_eq_of_lt h1 h2]
    intro a b x y h h'
    rw [key h, key h']; omega
  have hp2 := hp.out.two_le
  refine ⟨fun h => C.neg h, fun h h' => C.add h h', fun h h' => C.sub h h', fun h h' => C.mul h h', fun {a b x y} h h' hy => ?_,
    fun {a b x} h h' => ?_, fun {a b x y} h h' hy => ?_, fun {a b x} h h' => ?_, fun h h' => C.eq h h', fun {a b x y} h h' => ?_,
    fun h h' => C.lt h h', fun {a b x y} h h' => ?_, fun h h' => C.gt h h', fun {a b x y} h h' => ?_⟩
  · have := C.div h h' (mul_inv_cancel₀ hy)
    rw [div_eq_mul_inv]
    exact this
  · exact C.div_throw h h' (by simp)
  · refine Sat.bind (IntMod.mod_ok hp2 hm IntMod.cacheOk_init h h' (Ne.isUnit hy)).sat fun r hr => ?_
    exact hr.1
  · left
    show (do let r ← IntMod.mod IntMod.Cache.init a b; ok r.1) = Res.throw
    have : IntMod.mod IntMod.Cache.init a b = Res.throw := by
      unfold IntMod.mod
      rw [IntMod.check_moduli_ok h h', ok_bind]
      obtain ⟨⟨o, c⟩, hr, hs, _⟩ := IntMod.recip_ok hp2 hm IntMod.cacheOk_init h'
      rw [hr, ok_bind]
      cases o with
      | none => rfl
      | some q =>
        obtain ⟨z, _, hz⟩ := hs
        simp at hz
    rw [this]
    rfl
  · refine Sat.bind (P := fun r => r = true ↔ x = y) (C.eq h h') fun r hr => ?_
    rw [Sat_ok]
    cases r <;> simp_all
  · show (do IntMod.check_moduli a b; ok (decide (a.residue ≤ b.residue)) : Res Bool).Sat _ _
    rw [IntMod.check_moduli_ok h h', ok_bind, Sat_ok, decide_eq_true_iff, ← vlt h' h]
    omega
  · show (do IntMod.check_moduli a b; ok (decide (b.residue ≤ a.residue)) : Res Bool).Sat _ _
    rw [IntMod.check_moduli_ok h h', ok_bind, Sat_ok, decide_eq_true_iff, ← vlt h h']
    omega

/-! ### Rationals -/

theorem intrat_fref : FRef True intratOps IntRat.Rep (fun x y : ℚ => x < y) := by
  refine ⟨fun h => (IntRat.neg_ok h).sat, IntRat.add_sat, IntRat.sub_sat, IntRat.mul_sat, fun h h' hy => IntRat.div_sat h h' hy,
    fun _ h' => IntRat.div_zero_throw h', fun {a b x y} h h' hy => ?_, fun {a b x} h h' => ?_, fun {a b x y} h h' => ?_,
    fun {a b x y} h h' => ?_, fun {a b x y} h h' => ?_, fun {a b x y} h h' => ?_, fun {a b x y} h h' => ?_, fun {a b x y} h h' => ?_⟩
  · show (IntRat.mod a b).Sat _ _
    unfold IntRat.mod
    refine Sat.bind (IntRat.sub_sat h' h') fun z hz => ?_
    rw [sub_self] at hz
    rw [IntRat.eq_ok h' hz, ok_bind]
    simp only [hy, decide_false, Bool.false_eq_true, if_false]
    exact hz
  · show (IntRat.mod a b).Throws _
    unfold IntRat.mod
    refine Sat.throws_bind (IntRat.sub_sat h' h') fun z hz => ?_
    rw [sub_self] at hz
    rw [IntRat.eq_ok h' hz, ok_bind]
    simp only [decide_true, if_true]
    exact .inl rfl
  · show (IntRat.eq a b).Sat _ _
    rw [IntRat.eq_ok h h', Sat_ok, decide_eq_true_iff]
  · show (do let r ← IntRat.eq a b; ok (!r) : Res Bool).Sat _ _
    rw [IntRat.eq_ok h h', ok_bind, Sat_ok]
    simp
  · refine (IntRat.cross_sat h h').bind ?_
    rintro c ⟨⟨h1, h2⟩, h3⟩
    rw [Sat_ok, decide_eq_true_iff]; exact IntRat.lt_iff h1 h2 h3
  · refine (IntRat.cross_sat h h').bind ?_
    rintro c ⟨⟨h1, h2⟩, h3⟩
    rw [Sat_ok, decide_eq_true_iff, ← IntRat.lt_iff h2 h1 h3, not_lt]
  · refine (IntRat.cross_sat h h').bind ?_
    rintro c ⟨⟨h1, h2⟩, h3⟩
    rw [Sat_ok, decide_eq_true_iff]; exact IntRat.lt_iff h2 h1 h3
  · refine (IntRat.cross_sat h h').bind ?_
    rintro c ⟨⟨h1, h2⟩, h3⟩
    rw [Sat_ok, decide_eq_true_iff, ← IntRat.lt_iff h1 h2 h3, not_lt]

/-- Whatever the text, reading a rational gives one in lowest terms, an exception, or is undefined. -/
theorem readRat_safe (cs : List Char) : Safe True False (Scan.readRat cs) fun a => ∃ x, IntRat.Rep a x := by
  have simp_safe : ∀ n d, InInt n → InInt d → Safe True False (IntRat.simplify ⟨n, d⟩) fun a => ∃ x, IntRat.Rep a x := by
    intro n d hn hd
    by_cases h0 : d = 0
    · subst h0; rw [IntRat.simplify_throw]; trivial
    · have := IntRat.simplify_sat hn hd h0
      cases h : IntRat.simplify ⟨n, d⟩ with
      | ok a => rw [h] at this; exact ⟨_, this⟩
      | throw => trivial
      | ub => trivial
      | timeout => rw [h] at this; exact this
  have hin : ∀ (v0 : Int) (s : Scan.IStream), InInt v0 → InInt (Scan.extractInt v0 s).1 := by
    intro v0 s h0
    unfold Scan.extractInt
    split
    · split
      · exact h0
      · rename_i cs _ _
        have hc : ∀ neg f n, InInt (Scan.clampInt neg f n).1 := by
          intro neg f n
          cases f
          · exact (by unfold InInt; simp [Scan.clampInt])
          · exact (Scan.clamp_true neg n).2.2
        exact hc _ _ _
    · exact h0
  have h1 : InInt (Scan.ratDenom 1 (Scan.extractInt 0 (.ofChars cs)).2).1 := by
    unfold Scan.ratDenom
    split
    · unfold InInt; simp
    · dsimp only
      split
      · exact hin _ _ (by unfold InInt; simp)
      · unfold InInt; simp
  rw [Scan.readRat_of rfl rfl]
  refine Safe.bind (simp_safe _ _ (Scan.extractInt_inInt cs) h1) fun q _ hq => ?_
  split
  · trivial
  · exact hq

end Spffl.Expr
