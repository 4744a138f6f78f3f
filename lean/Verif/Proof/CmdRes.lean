import Verif.Model.CmdRes
import Verif.Proof.CmdField
import Verif.Props.Units

/-! Rules for the commands on residues. -/

namespace Spffl.Cmd
open Res Scan Lists Spffl.Props

/-- `L` has exactly the elements that satisfy `S`, in ascending order. -/
def Elems {R : Type} (key : R → ℕ) (S : R → Prop) (L : List R) : Prop := L.Pairwise (fun x y => key x < key y) ∧ ∀ x, x ∈ L ↔ S x

/-- The elements that satisfy `S`, one per line, in ascending order. -/
def Ascend {R : Type} (key : R → ℕ) (txt : R → List Char) (S : R → Prop) (t : List Char) : Prop :=
  ∃ L, Elems key S L ∧ t = L.flatMap fun x => txt x ++ ['\n']

/-- There is only one such list. -/
theorem Elems.unique {R : Type} {key : R → ℕ} {S : R → Prop} {L L' : List R} (h : Elems key S L) (h' : Elems key S L') : L = L' := by
  refine List.Perm.eq_of_pairwise (le := fun x y => key x < key y) (fun a b _ _ h1 h2 => absurd h1 (lt_asymm h2)) h.1 h'.1 ?_
  refine (List.perm_ext_iff_of_nodup ?_ ?_).2 fun x => (h.2 x).trans (h'.2 x).symm
  · exact h.1.imp fun hlt e => by rw [e] at hlt; exact lt_irrefl _ hlt
  · exact h'.1.imp fun hlt e => by rw [e] at hlt; exact lt_irrefl _ hlt

theorem Elems.units_length {R : Type} [Monoid R] {key : R → ℕ} {L : List R} (h : Elems key IsUnit L) : L.length = Nat.card Rˣ := by
  classical
  have hnd : L.Nodup := h.1.imp fun hlt e => by rw [e] at hlt; exact lt_irrefl _ hlt
  have e : Rˣ ≃ {x // x ∈ L.toFinset} := Equiv.ofBijective (fun u => ⟨u, by rw [List.mem_toFinset, h.2]; exact u.isUnit⟩)
    ⟨fun u v huv => Units.ext (congrArg Subtype.val huv), fun ⟨y, hy⟩ => by
      rw [List.mem_toFinset, h.2] at hy
      exact ⟨hy.unit, rfl⟩⟩
  rw [Nat.card_congr e, Nat.card_eq_fintype_card, Fintype.card_coe, List.toFinset_card_of_nodup hnd]

/-- What a listing function of the library returns. -/
def Lists {α R : Type} (rep : α → R → Prop) (key : R → ℕ) (r : Res (List α)) (S : R → Prop) : Prop :=
  ∃ l L, r = ok l ∧ List.Forall₂ rep l L ∧ Elems key S L

/-- A list of objects in ascending order denotes a list in ascending order. -/
theorem lists_of {α R : Type} {rep : α → R → Prop} {key : R → ℕ} {r : Res (List α)} {S : R → Prop} {lt : α → α → Prop}
    (hlt : ∀ a b x y, rep a x → rep b y → lt a b → key x < key y)
    (h : r.Ok fun l => (∃ L : List R, List.Forall₂ rep l L ∧ L.Nodup ∧ ∀ x, x ∈ L ↔ S x) ∧ l.Pairwise lt) : Lists rep key r S := by
  obtain ⟨l, h1, ⟨L, h2, -, h3⟩, h4⟩ := h
  refine ⟨l, L, h1, h2, ?_, h3⟩
  clear h1 h3
  induction h2 with
  | nil => exact .nil
  | @cons a x l L hx hl ih =>
    rw [List.pairwise_cons] at h4 ⊢
    refine ⟨fun y hy => ?_, ih h4.2⟩
    obtain ⟨b, hb, hr⟩ : ∃ b ∈ l, rep b y := by
      clear ih h4
      induction hl with
      | nil => cases hy
      | cons h1 h2 ih =>
        rcases List.mem_cons.1 hy with rfl | hy
        · exact ⟨_, by simp, h1⟩
        · obtain ⟨b, hb, hr⟩ := ih hy
          exact ⟨b, by simp [hb], hr⟩
    exact hlt a b x y hx hr (h4.1 b hb)

section
variable {μ α R : Type} {par : List Char → Cmd μ} {T : RTool μ α} {m : μ} {rep : α → R → Prop} {key : R → ℕ}
  {Lit : List Char → R → Prop} {txt : R → List Char}

/-- Reading and writing residues modulo `m`; the texts in `Bad` are refused. -/
structure RIOB (T : RTool μ α) (m : μ) (rep : α → R → Prop) (Lit : List Char → R → Prop) (Bad : List Char → Prop) (txt : R → List Char) : Prop where
  read : ∀ {cs x}, Lit cs x → ∃ a, T.read m cs = ok (some a) ∧ rep a x
  bad : ∀ {cs}, Bad cs → T.read m cs = ok none
  sh : ∀ a x, rep a x → T.sh a = ok (txt x)

/-- All texts that are no residue are refused. -/
abbrev RIO (T : RTool μ α) (m : μ) (rep : α → R → Prop) (Lit : List Char → R → Prop) (txt : R → List Char) : Prop :=
  RIOB T m rep Lit (fun cs => ∀ x, ¬ Lit cs x) txt

theorem crout_text {l : List α} {L : List R} (hsh : ∀ a x, rep a x → T.sh a = ok (txt x)) (h : List.Forall₂ rep l L) :
    Prints (crout T.sh l) (L.flatMap fun x => txt x ++ ['\n']) () := by
  induction h with
  | nil => exact prints_pure ()
  | cons h1 h2 ih => exact (putLine_prints (hsh _ _ h1)).bind ih

variable {Bad : List Char → Prop} (io : RIOB T m rep Lit Bad txt) {x : List Char}

/-! ### Listings -/

theorem flag_a : Prints (listFlag "-a".toList) [] .all := rfl
theorem flag_u : Prints (listFlag "-u".toList) [] .units := rfl
theorem flag_nu : Prints (listFlag "-nu".toList) [] .non_units := rfl
theorem flag_m : Prints (glistFlag "-m".toList) [] .multiples := rfl
theorem flag_rp : Prints (glistFlag "-rp".toList) [] .rel_prime := rfl

include io in
theorem list_prints (hx : Prints (par x) [] m) {f : List Char} {t : LType} (hf : Prints (listFlag f) [] t) {S : R → Prop}
    (h : Lists rep key (T.list m t) S) : ∃ w, Ascend key txt S w ∧ Prints (rList par T [f, x]) w () := by
  obtain ⟨l, L, h1, h2, h3⟩ := h
  exact ⟨_, ⟨L, h3, rfl⟩, hf.then (hx.then ((prints_lift h1).then (crout_text io.sh h2)))⟩

include io in
theorem glist_prints (hx : Prints (par x) [] m) {f : List Char} {t : LType} (hf : Prints (glistFlag f) [] t) {S : R → R → Prop} {g : List Char} {w : R}
    (hg : Lit g w) (h : ∀ a, rep a w → Lists rep key (T.glist a t) (S w)) : ∃ s, Ascend key txt (S w) s ∧ Prints (rList par T [f, g, x]) s () := by
  obtain ⟨a, e1, e2⟩ := io.read hg
  obtain ⟨l, L, h1, h2, h3⟩ := h a e2
  exact ⟨_, ⟨L, h3, rfl⟩, hf.then (hx.then ((readArg_prints e1).then ((prints_lift h1).then (crout_text io.sh h2))))⟩

include io in
theorem glist_exits (hx : Prints (par x) [] m) {f : List Char} {t : LType} (hf : Prints (glistFlag f) [] t) {g : List Char} (hg : Bad g) :
    Exits (rList par T [f, g, x]) [] := hf.then_exits (hx.then_exits (readArg_exits (io.bad hg)).bind)

theorem list_flag {f : List Char} (hf : f ≠ "-a".toList ∧ f ≠ "-u".toList ∧ f ≠ "-nu".toList) : Exits (rList par T [f, x]) [] := by
  refine Exits.bind ?_
  unfold listFlag
  rw [if_neg hf.1, if_neg hf.2.1, if_neg hf.2.2]
  exact exits_exit1

theorem glist_flag {f g : List Char} (hf : f ≠ "-m".toList ∧ f ≠ "-rp".toList) : Exits (rList par T [f, g, x]) [] := by
  refine Exits.bind ?_
  unfold glistFlag
  rw [if_neg hf.1, if_neg hf.2]
  exact exits_exit1

/-! ### Tables -/

/-- The rows of a table. -/
def tblText (txt : R → List Char) (op : R → R → R) (L : List R) : List Char :=
  L.flatMap fun a => List.intercalate [' '] (L.map fun b => txt (op a b)) ++ ['\n']

theorem intercalate_map {β : Type} (sep : List Char) (f : β → List Char) (b : β) (l : List β) :
    List.intercalate sep ((b :: l).map f) = f b ++ l.flatMap fun c => sep ++ f c := by
  induction l generalizing b with
  | nil => simp [List.intercalate]
  | cons c l ih =>
    have := ih c
    simp only [List.intercalate, List.map_cons, List.intersperse_cons_cons, List.flatten_cons, List.flatMap_cons] at this ⊢
    rw [this]
    simp

theorem tblRow_rest (hsh : ∀ a x, rep a x → T.sh a = ok (txt x)) {o : α → α → Res α} {op : R → R → R} {a : α} {u : R} {l : List α} {L : List R}
    (h : List.Forall₂ rep l L) (ho : ∀ b v, rep b v → v ∈ L → (o a b).Ok fun c => rep c (op u v)) :
    Prints (tblRow T o a false l) (L.flatMap (fun v => [' '] ++ txt (op u v)) ++ ['\n']) () := by
  induction h with
  | nil => exact prints_out _
  | @cons b v l L hb hl ih =>
    obtain ⟨c, e1, e2⟩ := ho b v hb (by simp)
    exact ((prints_lift e1).then ((prints_out [' ']).bind ((put_prints (hsh _ _ e2)).bind
      (ih fun b v hb hv => ho b v hb (by simp [hv]))))).of_eq (by simp)

theorem tblRow_first (hsh : ∀ a x, rep a x → T.sh a = ok (txt x)) {o : α → α → Res α} {op : R → R → R} {a : α} {u : R} {l : List α} {L : List R}
    (h : List.Forall₂ rep l L) (ho : ∀ b v, rep b v → v ∈ L → (o a b).Ok fun c => rep c (op u v)) :
    Prints (tblRow T o a true l) (List.intercalate [' '] (L.map fun v => txt (op u v)) ++ ['\n']) () := by
  cases h with
  | nil => exact prints_out _
  | @cons b v l L hb hl =>
    obtain ⟨c, e1, e2⟩ := ho b v hb (by simp)
    rw [intercalate_map]
    exact ((prints_lift e1).then ((prints_pure ()).bind ((put_prints (hsh _ _ e2)).bind
      (tblRow_rest (op := op) (u := u) hsh hl fun b' v' hb' hv' => ho b' v' hb' (List.mem_cons_of_mem _ hv'))))).of_eq (by simp)

theorem tblRows_prints (hsh : ∀ a x, rep a x → T.sh a = ok (txt x)) {o : α → α → Res α} {op : R → R → R} {r : List α} {Q : List R}
    {l : List α} {L : List R} (hr : List.Forall₂ rep r Q) (h : List.Forall₂ rep l L)
    (ho : ∀ a b u v, rep a u → rep b v → u ∈ Q → v ∈ L → (o a b).Ok fun c => rep c (op u v)) :
    Prints (tblRows T o l r) (Q.flatMap fun u => List.intercalate [' '] (L.map fun v => txt (op u v)) ++ ['\n']) () := by
  induction hr with
  | nil => exact prints_pure ()
  | @cons a u r Q ha hr ih =>
    exact (tblRow_first hsh h fun b v hb hv => ho a b u v ha hb (by simp) hv).bind
      (ih fun a b u v ha hb hu hv => ho a b u v ha hb (by simp [hu]) hv)

theorem op_table (hsh : ∀ a x, rep a x → T.sh a = ok (txt x)) {t : LType} {o : α → α → Res α} {op : R → R → R} {S : R → Prop} (h : Lists rep key (T.list m t) S)
    (ho : ∀ a b u v, rep a u → rep b v → S u → S v → (o a b).Ok fun c => rep c (op u v)) :
    ∃ L, Elems key S L ∧ Prints (lift (T.list m t) >>= fun elts => tblRows T o elts elts) (tblText txt op L) () := by
  obtain ⟨l, L, h1, h2, h3⟩ := h
  exact ⟨L, h3, (prints_lift h1).then (tblRows_prints hsh h2 h2 fun a b u v ha hb hu hv => ho a b u v ha hb ((h3.2 u).1 hu) ((h3.2 v).1 hv))⟩

/-- Tables of logarithms and of powers. -/
def logHead : List Char := "element power\n------- -----\n".toList
def alogHead : List Char := "power element\n----- -------\n".toList
/-- A line of the table of logarithms to the base `w`. -/
def LogLine [CommRing R] (txt : R → List Char) (bound : ℕ) (w x : R) (t : List Char) : Prop :=
  ∃ e : ℕ, e < bound ∧ w ^ e = x ∧ t = txt x ++ ' ' :: showInt e ++ ['\n']
def alogText [CommRing R] (txt : R → List Char) (w : R) (n : ℕ) : List Char :=
  (List.range n).flatMap fun i => showNat i ++ ' ' :: txt (w ^ i) ++ ['\n']

variable [CommRing R]

/-- What the library's logarithm does: an exponent if there is one, an exception otherwise. -/
def LogOk (T : RTool μ α) (rep : α → R → Prop) (bound : ℕ) : Prop := ∀ {g a w x}, rep g w → rep a x →
  (IsUnit w → ((T.log g a = .throw ∧ ¬ ∃ r : ℕ, w ^ r = x) ∨ ∃ r : ℕ, T.log g a = ok (r : Int) ∧ r < bound ∧ w ^ r = x)) ∧
  (¬ IsUnit w → T.log g a = .throw)

theorem log_found {bound : ℕ} (H : LogOk T rep bound) {g a : α} {w x : R} (hg : rep g w) (ha : rep a x) (hw : IsUnit w)
    (hp : ∃ k : ℕ, w ^ k = x) : ∃ r : ℕ, T.log g a = ok (r : Int) ∧ r < bound ∧ w ^ r = x := by
  rcases (H hg ha).1 hw with h | h
  · exact absurd hp h.2
  · exact h

theorem log_none {bound : ℕ} (H : LogOk T rep bound) {g a : α} {w x : R} (hg : rep g w) (ha : rep a x)
    (hp : ¬ (IsUnit w ∧ ∃ k : ℕ, w ^ k = x)) : T.log g a = .throw := by
  by_cases hw : IsUnit w
  · rcases (H hg ha).1 hw with h | ⟨r, -, -, h⟩
    · exact h.1
    · exact absurd ⟨hw, r, h⟩ hp
  · exact (H hg ha).2 hw

section
variable (hsh : ∀ a x, rep a x → T.sh a = ok (txt x)) {bound : ℕ} (H : LogOk T rep bound) {g : α} {w : R} (hg : rep g w)
include hsh H hg

theorem logRows_prints (hw : IsUnit w) {l : List α} {L : List R} (h : List.Forall₂ rep l L) (hp : ∀ x ∈ L, ∃ k : ℕ, w ^ k = x) :
    ∃ ts, List.Forall₂ (LogLine txt bound w) L ts ∧ Prints (logRows T g l) ts.flatten () := by
  induction h with
  | nil => exact ⟨[], .nil, prints_pure ()⟩
  | @cons a x l L ha hl ih =>
    obtain ⟨e, e1, e2, e3⟩ := log_found H hg ha hw (hp x (by simp))
    obtain ⟨ts, h1, h2⟩ := ih fun y hy => hp y (by simp [hy])
    refine ⟨_ :: ts, .cons ⟨e, e2, e3, rfl⟩ h1, ?_⟩
    exact ((prints_lift e1).then ((put_prints (hsh _ _ ha)).bind ((outLine_prints _).bind h2))).of_eq (by simp)

theorem logRows_throws {l : List α} {pre post : List R} {y : R} (h : List.Forall₂ rep l (pre ++ y :: post))
    (hp : ∀ x ∈ pre, IsUnit w ∧ ∃ k : ℕ, w ^ k = x) (hy : ¬ (IsUnit w ∧ ∃ k : ℕ, w ^ k = y)) :
    ∃ ts, List.Forall₂ (LogLine txt bound w) pre ts ∧ ThrowsC (logRows T g l) ts.flatten := by
  induction pre generalizing l with
  | nil =>
    cases h with
    | cons ha hl => exact ⟨[], .nil, (throws_lift (log_none H hg ha hy)).bind⟩
  | cons x pre ih =>
    cases h with
    | cons ha hl =>
      obtain ⟨e, e1, e2, e3⟩ := log_found H hg ha (hp x (by simp)).1 (hp x (by simp)).2
      obtain ⟨ts, h1, h2⟩ := ih hl fun y hy => hp y (by simp [hy])
      refine ⟨_ :: ts, .cons ⟨e, e2, e3, rfl⟩ h1, ?_⟩
      exact ((prints_lift e1).then_throws ((put_prints (hsh _ _ ha)).bind_throws ((outLine_prints _).bind_throws h2))).of_eq (by simp)

end

theorem alogRows_prints (hsh : ∀ a x, rep a x → T.sh a = ok (txt x)) (hmul : ∀ a b x y, rep a x → rep b y → (T.O.mul a b).Ok fun c => rep c (x * y))
    {g : α} {w : R} (hg : rep g w) (n i : ℕ) {gp : α} (hp : rep gp (w ^ i)) :
    Prints (alogRows T g n i gp) ((List.range n).flatMap fun j => showNat (i + j) ++ ' ' :: txt (w ^ (i + j)) ++ ['\n']) () := by
  induction n generalizing i gp with
  | zero => exact prints_pure ()
  | succ n ih =>
    obtain ⟨c, e1, e2⟩ := hmul _ _ _ _ hp hg
    have h := ih (i + 1) (gp := c) (by rw [pow_succ]; exact e2)
    refine ((prints_out _).bind ((putLine_prints (hsh _ _ hp)).bind ((prints_lift e1).then h))).of_eq ?_
    rw [List.range_succ_eq_map, List.flatMap_cons, List.flatMap_map]
    simp [Nat.add_comm, Nat.add_left_comm]

/-- What the commands need of the arithmetic and the listings modulo `m`. -/
structure ROps (T : RTool μ α) (m : μ) (rep : α → R → Prop) (key : R → ℕ) (txt : R → List Char) : Prop where
  sh : ∀ a x, rep a x → T.sh a = ok (txt x)
  add : ∀ {a b x y}, rep a x → rep b y → (T.O.add a b).Ok fun c => rep c (x + y)
  sub : ∀ {a b x y}, rep a x → rep b y → (T.O.sub a b).Ok fun c => rep c (x - y)
  mul : ∀ {a b x y}, rep a x → rep b y → (T.O.mul a b).Ok fun c => rep c (x * y)
  div : ∀ {a b x y z}, rep a x → rep b y → y * z = 1 → (T.O.div a b).Ok fun c => rep c (x * z)
  div_throw : ∀ {a b x y}, rep a x → rep b y → ¬ IsUnit y → T.O.div a b = .throw
  all : Lists rep key (T.list m .all) fun _ => True
  units : Lists rep key (T.list m .units) IsUnit

/-- And of orders and logarithms. -/
structure RRef (T : RTool μ α) (m : μ) (rep : α → R → Prop) (key : R → ℕ) (Lit : List Char → R → Prop) (txt : R → List Char) (bound : ℕ) : Prop
    extends ROps T m rep key txt where
  io : RIO T m rep Lit txt
  sh := io.sh
  order : ∀ {a x}, rep a x → IsUnit x → T.order a = ok (orderOf x : Int)
  order_throw : ∀ {a x}, rep a x → ¬ IsUnit x → T.order a = .throw
  log : LogOk T rep bound

omit [CommRing R] in
theorem rTbl_prints (hx : Prints (par x) [] m) {cs : List Char} {ty : TblType α} (h : tblArg T m cs = pure ty) {t : List Char}
    (hp : Prints (rTable T m ty) t ()) : Prints (rTbl par T [x, cs]) t () := by
  refine hx.then ?_
  rw [h, pure_bind]
  exact hp

section
variable (H : ROps T m rep key txt)
include H

theorem tbl_op {ty : TblType α} {t : LType} {o : α → α → Res α}
    (hr : rTable T m ty = (lift (T.list m t) >>= fun elts => tblRows T o elts elts))
    {op : R → R → R} {S : R → Prop} (hl : Lists rep key (T.list m t) S)
    (ho : ∀ a b u v, rep a u → rep b v → S u → S v → (o a b).Ok fun c => rep c (op u v)) :
    ∃ L, Elems key S L ∧ Prints (rTable T m ty) (tblText txt op L) () := by
  obtain ⟨L, h1, h2⟩ := op_table H.sh hl ho
  refine ⟨L, h1, ?_⟩
  rw [hr]
  exact h2

/-- The tables of the operations: each has all residues, or all units, in ascending order in its rows and columns. -/
theorem table_ops : (∃ L, Elems key (fun _ => True) L ∧ Prints (rTable T m .plus) (tblText txt (· + ·) L) () ∧
      Prints (rTable T m .minus) (tblText txt (· - ·) L) () ∧ Prints (rTable T m .mul) (tblText txt (· * ·) L) ()) ∧
    ∃ L, Elems key IsUnit L ∧ Prints (rTable T m .unit_mul) (tblText txt (· * ·) L) () ∧
      Prints (rTable T m .unit_div) (tblText txt (fun a b => a * Ring.inverse b) L) () := by
  constructor
  · obtain ⟨L1, e1, h1⟩ := tbl_op H (ty := .plus) rfl H.all fun a b u v ha hb _ _ => H.add ha hb
    obtain ⟨L2, e2, h2⟩ := tbl_op H (ty := .minus) rfl H.all fun a b u v ha hb _ _ => H.sub ha hb
    obtain ⟨L3, e3, h3⟩ := tbl_op H (ty := .mul) rfl H.all fun a b u v ha hb _ _ => H.mul ha hb
    cases e1.unique e2
    cases e1.unique e3
    exact ⟨_, e1, h1, h2, h3⟩
  · obtain ⟨L1, e1, h1⟩ := tbl_op H (ty := .unit_mul) rfl H.units fun a b u v ha hb _ _ => H.mul ha hb
    obtain ⟨L3, e3, h3⟩ := tbl_op H (ty := .unit_div) rfl H.units
      fun a b u v ha hb _ hv => H.div ha hb (Ring.mul_inverse_cancel _ hv)
    cases e1.unique e3
    exact ⟨_, e1, h1, h3⟩

theorem tbl_ops (hx : Prints (par x) [] m) : (∃ L, Elems key (fun _ => True) L ∧ Prints (rTbl par T [x, ['+']]) (tblText txt (· + ·) L) () ∧
      Prints (rTbl par T [x, ['-']]) (tblText txt (· - ·) L) () ∧ Prints (rTbl par T [x, ['*']]) (tblText txt (· * ·) L) () ∧
      Prints (rTbl par T [x, ['.']]) (tblText txt (· * ·) L) ()) ∧
    ∃ L, Elems key IsUnit L ∧ Prints (rTbl par T [x, ['u', '*']]) (tblText txt (· * ·) L) () ∧
      Prints (rTbl par T [x, ['u', '.']]) (tblText txt (· * ·) L) () ∧
      Prints (rTbl par T [x, ['/']]) (tblText txt (fun a b => a * Ring.inverse b) L) () := by
  obtain ⟨⟨L, e, h1, h2, h3⟩, L', e', h4, h5⟩ := table_ops H
  exact ⟨⟨L, e, rTbl_prints hx rfl h1, rTbl_prints hx rfl h2, rTbl_prints hx rfl h3, rTbl_prints hx rfl h3⟩, L', e', rTbl_prints hx rfl h4,
    rTbl_prints hx rfl h4, rTbl_prints hx rfl h5⟩

/-- The table of the powers of a given base. -/
theorem table_alog {g : α} {w : R} (hg : rep g w) :
    ∃ L, Elems key IsUnit L ∧ (IsUnit w → Prints (rTable T m (.alog g)) (alogHead ++ alogText txt w L.length) ()) ∧
      (¬ IsUnit w → ThrowsC (rTable T m (.alog g)) alogHead) := by
  obtain ⟨l, L, h1, h2, h3⟩ := H.units
  refine ⟨L, h3, fun hw => ?_, fun hw => ?_⟩
  · obtain ⟨c, e1, e2⟩ := H.div hg hg (Ring.mul_inverse_cancel _ hw)
    rw [Ring.mul_inverse_cancel _ hw, ← pow_zero w] at e2
    refine ((prints_lift h1).then ((prints_out alogHead).bind ((prints_lift e1).then (alogRows_prints H.sh (fun _ _ _ _ => H.mul) hg _ 0 e2)))).of_eq ?_
    rw [h2.length_eq]
    simp only [alogText, Nat.zero_add]
  · exact ((prints_lift h1).then_throws ((prints_out alogHead).bind_throws (throws_lift (H.div_throw hg hg hw)).bind)).of_eq (List.append_nil _)

theorem tbl_alog (hx : Prints (par x) [] m) {cs : List Char} {g : α} {w : R} (hg : rep g w) (ha : tblArg T m cs = pure (.alog g)) :
    ∃ L, Elems key IsUnit L ∧ (IsUnit w → Prints (rTbl par T [x, cs]) (alogHead ++ alogText txt w L.length) ()) ∧
      (¬ IsUnit w → ThrowsC (rTbl par T [x, cs]) alogHead) := by
  obtain ⟨L, h3, h4, h5⟩ := table_alog H hg
  refine ⟨L, h3, fun hw => hx.then ?_, fun hw => hx.then_throws ?_⟩
  · rw [ha, pure_bind]
    exact h4 hw
  · rw [ha, pure_bind]
    exact h5 hw

end

section
variable {bound : ℕ} (H : RRef T m rep key Lit txt bound) (hx : Prints (par x) [] m)
include H hx

/-- The table of logarithms to a given base. -/
theorem tbl_log {cs : List Char} {g : α} {w : R} (hg : rep g w) (ha : tblArg T m cs = pure (.log g)) :
    ∃ L, Elems key IsUnit L ∧
      (GenUnits w → ∃ ts, List.Forall₂ (LogLine txt bound w) L ts ∧ Prints (rTbl par T [x, cs]) (logHead ++ ts.flatten) ()) ∧
      ∀ pre y post, L = pre ++ y :: post → (∀ x ∈ pre, IsUnit w ∧ ∃ k : ℕ, w ^ k = x) → ¬ (IsUnit w ∧ ∃ k : ℕ, w ^ k = y) →
        ∃ ts, List.Forall₂ (LogLine txt bound w) pre ts ∧ ThrowsC (rTbl par T [x, cs]) (logHead ++ ts.flatten) := by
  obtain ⟨l, L, h1, h2, h3⟩ := H.units
  refine ⟨L, h3, fun hw => ?_, fun pre y post e hp hy => ?_⟩
  · obtain ⟨ts, k1, k2⟩ := logRows_prints H.io.sh H.log hg hw.1 h2 fun y hy => hw.2 y ((h3.2 y).1 hy)
    refine ⟨ts, k1, hx.then ?_⟩
    rw [ha, pure_bind]
    exact (prints_lift h1).then ((prints_out logHead).bind k2)
  · obtain ⟨ts, k1, k2⟩ := logRows_throws H.io.sh H.log hg (e ▸ h2) hp hy
    refine ⟨ts, k1, hx.then_throws ?_⟩
    rw [ha, pure_bind]
    exact (prints_lift h1).then_throws ((prints_out logHead).bind_throws k2)

end

/-! ### The second argument of the table commands -/

theorem tblArg_log {cs : List Char} {a : α} (h : T.read m cs = ok (some a)) : tblArg T m (['l', 'o', 'g', ':'] ++ cs) = pure (.log a) := by
  have e : tblArg T m (['l', 'o', 'g', ':'] ++ cs) = (readArg (T.read m) cs >>= fun g => pure (.log g)) := rfl
  rw [e]
  exact skip (readArg_prints h) _

theorem tblArg_alog {cs : List Char} {a : α} (h : T.read m cs = ok (some a)) : tblArg T m (['a', 'l', 'o', 'g', ':'] ++ cs) = pure (.alog a) := by
  have e : tblArg T m (['a', 'l', 'o', 'g', ':'] ++ cs) = (readArg (T.read m) cs >>= fun g => pure (.alog g)) := rfl
  rw [e]
  exact skip (readArg_prints h) _

theorem tbl_bad_base {cs : List Char} (hx : Prints (par x) [] m) (h : T.read m cs = ok none) :
    Exits (rTbl par T [x, ['l', 'o', 'g', ':'] ++ cs]) [] ∧ Exits (rTbl par T [x, ['a', 'l', 'o', 'g', ':'] ++ cs]) [] := by
  have e1 : tblArg T m (['l', 'o', 'g', ':'] ++ cs) = (readArg (T.read m) cs >>= fun g => pure (.log g)) := rfl
  have e2 : tblArg T m (['a', 'l', 'o', 'g', ':'] ++ cs) = (readArg (T.read m) cs >>= fun g => pure (.alog g)) := rfl
  constructor
  · refine hx.then_exits (Exits.bind ?_)
    rw [e1]
    exact (readArg_exits h).bind
  · refine hx.then_exits (Exits.bind ?_)
    rw [e2]
    exact (readArg_exits h).bind

/-- Without a base one is searched for. -/
theorem tblArg_gen {a : α} (h : T.gen m = ok (some a)) :
    tblArg T m ['l', 'o', 'g'] = pure (.log a) ∧ tblArg T m ['a', 'l', 'o', 'g'] = pure (.alog a) := by
  have e1 : tblArg T m ['l', 'o', 'g'] = (genArg T m >>= fun g => pure (.log g)) := rfl
  have e2 : tblArg T m ['a', 'l', 'o', 'g'] = (genArg T m >>= fun g => pure (.alog g)) := rfl
  have hg : Prints (genArg T m) [] a := (prints_lift h).then (prints_pure a)
  rw [e1, e2]
  exact ⟨skip hg _, skip hg _⟩

theorem tbl_no_gen (hx : Prints (par x) [] m) (h : T.gen m = ok none) :
    Exits (rTbl par T [x, ['l', 'o', 'g']]) [] ∧ Exits (rTbl par T [x, ['a', 'l', 'o', 'g']]) [] := by
  have e1 : tblArg T m ['l', 'o', 'g'] = (genArg T m >>= fun g => pure (.log g)) := rfl
  have e2 : tblArg T m ['a', 'l', 'o', 'g'] = (genArg T m >>= fun g => pure (.alog g)) := rfl
  have hg : Exits (genArg T m) [] := (prints_lift h).then_exits exits_exit1
  constructor
  · refine hx.then_exits (Exits.bind ?_)
    rw [e1]
    exact hg.bind
  · refine hx.then_exits (Exits.bind ?_)
    rw [e2]
    exact hg.bind

theorem tbl_gen_throws (hx : Prints (par x) [] m) (h : T.gen m = .throw) :
    ThrowsC (rTbl par T [x, ['l', 'o', 'g']]) [] ∧ ThrowsC (rTbl par T [x, ['a', 'l', 'o', 'g']]) [] := by
  have e1 : tblArg T m ['l', 'o', 'g'] = (genArg T m >>= fun g => pure (.log g)) := rfl
  have e2 : tblArg T m ['a', 'l', 'o', 'g'] = (genArg T m >>= fun g => pure (.alog g)) := rfl
  have hg : ThrowsC (genArg T m) [] := (throws_lift h).bind
  constructor
  · refine hx.then_throws (ThrowsC.bind ?_)
    rw [e1]
    exact hg.bind
  · refine hx.then_throws (ThrowsC.bind ?_)
    rw [e2]
    exact hg.bind

/-- The names of tables. -/
def tblNames : List (List Char) :=
  [['+'], ['-'], ['*'], ['.'], ['u', '*'], ['u', '.'], ['/'], ['l', 'o', 'g'], ['a', 'l', 'o', 'g']]

theorem tbl_usage {cs : List Char} (hx : Prints (par x) [] m) (h : cs ∉ tblNames) (h1 : ¬ ['l', 'o', 'g', ':'] <+: cs)
    (h2 : ¬ ['a', 'l', 'o', 'g', ':'] <+: cs) : Exits (rTbl par T [x, cs]) [] := by
  simp only [tblNames, List.mem_cons, List.not_mem_nil, or_false, not_or] at h
  obtain ⟨a1, a2, a3, a4, a5, a6, a7, a8, a9⟩ := h
  refine hx.then_exits (Exits.bind ?_)
  unfold tblArg
  have e1 : ¬ cs.take 4 = "log:".toList := fun e => h1 (by rw [show ['l', 'o', 'g', ':'] = cs.take 4 from e.symm]; exact List.take_prefix _ _)
  have e2 : ¬ cs.take 5 = "alog:".toList := fun e => h2 (by rw [show ['a', 'l', 'o', 'g', ':'] = cs.take 5 from e.symm]; exact List.take_prefix _ _)
  rw [if_neg (show ¬ cs = "+".toList from a1), if_neg (show ¬ cs = "-".toList from a2), if_neg (show ¬ cs = "*".toList from a3),
    if_neg (show ¬ cs = ".".toList from a4), if_neg (show ¬ cs = "u*".toList from a5), if_neg (show ¬ cs = "u.".toList from a6),
    if_neg (show ¬ cs = "/".toList from a7), if_neg e1, if_neg (show ¬ cs = "log".toList from a8), if_neg e2,
    if_neg (show ¬ cs = "alog".toList from a9)]
  exact exits_exit1

/-! ### Orders and logarithms -/

theorem rLabel_prints {β : Type} {sh : β → Res (List Char)} {a : β} {t : List Char} (several : Bool) (h : sh a = ok t) :
    Prints (rLabel several sh a) (lab several t ": ".toList) () := by
  cases several
  · exact prints_pure ()
  · exact (put_prints h).bind (prints_out _)

/-- As `Each`; at an argument with a value that does not satisfy `Q` the command stops with an exception, after the texts of those
before and `stop`. -/
def EachTB (Lit : List Char → R → Prop) (Bad : List Char → Prop) (A : List (List Char) → Prop) (Q : R → Prop) (line : Bool → R → List Char → Prop)
    (stop : Bool → R → List Char) (cmd : List (List Char) → Cmd Unit) : Prop :=
  Each Lit Bad A Q line cmd ∧
  ∀ pre cs post xs y, A (pre ++ cs :: post) → List.Forall₂ Lit pre xs → (∀ x ∈ xs, Q x) → Lit cs y → ¬ Q y →
    ∃ ts, List.Forall₂ (line (1 < (pre ++ cs :: post).length)) xs ts ∧
      ThrowsC (cmd (pre ++ cs :: post)) (ts.flatten ++ stop (1 < (pre ++ cs :: post).length) y)

/-- Every text that is no value is refused. -/
abbrev EachT (Lit : List Char → R → Prop) (A : List (List Char) → Prop) (Q : R → Prop) (line : Bool → R → List Char → Prop)
    (stop : Bool → R → List Char) (cmd : List (List Char) → Cmd Unit) : Prop := EachTB Lit (fun cs => ∀ x, ¬ Lit cs x) A Q line stop cmd

omit [CommRing R] in
theorem eachT {A : List (List Char) → Prop} {Q : R → Prop} {line : Bool → R → List Char → Prop} {stop : Bool → R → List Char}
    {cmd : List (List Char) → Cmd Unit} {body : Bool → List Char → Cmd Unit}
    (hc : ∀ args, A args → cmd args = args.forM (body (1 < args.length)))
    (hb : ∀ several cs x, Lit cs x → Q x → ∃ t, line several x t ∧ Prints (body several cs) t ())
    (hx : ∀ several cs, Bad cs → Exits (body several cs) [])
    (ht : ∀ several cs x, Lit cs x → ¬ Q x → ThrowsC (body several cs) (stop several x)) : EachTB Lit Bad A Q line stop cmd := by
  refine ⟨each hc hb hx, fun pre cs post xs y ha h hq hy hn => ?_⟩
  rw [hc _ ha]
  exact forM_rel_throws h hq (hb _) (ht _ _ _ hy hn)

section
variable (hx : Prints (par x) [] m)
include io hx

theorem ord_each (ho : ∀ {a x}, rep a x → IsUnit x → T.order a = ok (orderOf x : Int)) (ht : ∀ {a x}, rep a x → ¬ IsUnit x → T.order a = .throw) :
    EachTB Lit Bad (fun args => args ≠ []) IsUnit (fun several y t => t = lab several (txt y) ": ".toList ++ showInt (orderOf y) ++ ['\n'])
      (fun several y => lab several (txt y) ": ".toList) (fun args => rOrd par T (x :: args)) := by
  refine eachT (body := ord1 T m) (fun args hne => ?_) (fun several cs y hy hu => ⟨_, rfl, ?_⟩) (fun several cs hno => ?_)
    (fun several cs y hy hu => ?_)
  · obtain ⟨z, r, rfl⟩ := List.exists_cons_of_ne_nil hne
    exact skip hx _
  · obtain ⟨a, e1, e2⟩ := io.read hy
    exact ((readArg_prints e1).then ((rLabel_prints several (io.sh _ _ e2)).bind ((prints_lift (ho e2 hu)).then (outLine_prints _)))).of_eq
      (List.append_assoc _ _ _).symm
  · exact (readArg_exits (io.bad hno)).bind
  · obtain ⟨a, e1, e2⟩ := io.read hy
    exact ((readArg_prints e1).then_throws ((rLabel_prints several (io.sh _ _ e2)).bind_throws (throws_lift (ht e2 hu)).bind)).of_eq
      (List.append_nil _)

theorem log_each {bound : ℕ} (H : LogOk T rep bound) {g : List Char} {w : R} (hg : Lit g w) :
    EachTB Lit Bad (fun args => args ≠ []) (fun y => IsUnit w ∧ ∃ k : ℕ, w ^ k = y)
      (fun several y t => ∃ e : ℕ, e < bound ∧ w ^ e = y ∧ t = lab several (txt y) ": ".toList ++ showInt e ++ ['\n'])
      (fun several y => lab several (txt y) ": ".toList) (fun args => rLog par T (x :: g :: args)) := by
  obtain ⟨b, g1, g2⟩ := io.read hg
  refine eachT (body := log1 T m b) (fun args hne => ?_) (fun several cs y hy hu => ?_) (fun several cs hno => ?_)
    (fun several cs y hy hu => ?_)
  · obtain ⟨z, r, rfl⟩ := List.exists_cons_of_ne_nil hne
    exact (skip hx _).trans (skip (readArg_prints g1) _)
  · obtain ⟨a, e1, e2⟩ := io.read hy
    obtain ⟨e, f1, f2, f3⟩ := log_found H g2 e2 hu.1 hu.2
    exact ⟨_, ⟨e, f2, f3, rfl⟩, ((readArg_prints e1).then ((rLabel_prints several (io.sh _ _ e2)).bind ((prints_lift f1).then
      (outLine_prints _)))).of_eq (List.append_assoc _ _ _).symm⟩
  · exact (readArg_exits (io.bad hno)).bind
  · obtain ⟨a, e1, e2⟩ := io.read hy
    exact ((readArg_prints e1).then_throws ((rLabel_prints several (io.sh _ _ e2)).bind_throws (throws_lift (log_none H g2 e2 hu)).bind)).of_eq
      (List.append_nil _)

omit [CommRing R] in
theorem log_base {g : List Char} (hg : Bad g) (y : List Char) (r : List (List Char)) : Exits (rLog par T (x :: g :: y :: r)) [] :=
  hx.then_exits (readArg_exits (io.bad hg)).bind

end

/-- `e` is the largest order of a unit. -/
theorem maxOrd_prints (ho : ∀ {a x}, rep a x → IsUnit x → T.order a = ok (orderOf x : Int)) {l : List α} {L : List R} (h : List.Forall₂ rep l L) (hu : ∀ x ∈ L, IsUnit x) (max : ℕ) :
    ∃ e : ℕ, Prints (maxOrd T max l) [] (e : Int) ∧ (e = max ∨ ∃ x ∈ L, orderOf x = e) ∧ max ≤ e ∧ ∀ x ∈ L, orderOf x ≤ e := by
  induction h generalizing max with
  | nil => exact ⟨max, prints_pure _, .inl rfl, le_rfl, by simp⟩
  | @cons a x l L ha hl ih =>
    obtain ⟨e, h1, h2, h3, h4⟩ := ih (fun y hy => hu y (by simp [hy])) (if max < orderOf x then orderOf x else max)
    refine ⟨e, (prints_lift (ho ha (hu x (by simp)))).then ?_, ?_, ?_, ?_⟩
    · have : (if (max : Int) < orderOf x then (orderOf x : Int) else max) = ((if max < orderOf x then orderOf x else max : ℕ) : Int) := by
        by_cases hh : max < orderOf x
        · rw [if_pos hh, if_pos (by exact_mod_cast hh)]
        · rw [if_neg hh, if_neg (by exact_mod_cast hh)]
      rw [this]
      exact h1
    · rcases h2 with h2 | ⟨y, hy, h2⟩
      · by_cases hh : max < orderOf x
        · rw [if_pos hh] at h2
          exact .inr ⟨x, by simp, h2.symm⟩
        · rw [if_neg hh] at h2
          exact .inl h2
      · exact .inr ⟨y, by simp [hy], h2⟩
    · split at h3 <;> omega
    · intro y hy
      rcases List.mem_cons.1 hy with rfl | hy
      · split at h3 <;> omega
      · exact h4 y hy

end

/-! ### Generators -/

section
variable {μ α σ : Type} {par : List Char → Cmd μ} {T : RTool μ α} {LitM : List Char → σ → Prop} {txtM : σ → List Char}
  {Gen : σ → List Char → Prop} {None : σ → Prop}

/-- What is printed for one modulus: `Gen s t` says that `t` is the text of the generator wanted, `None s` that there is no generator. -/
def GenLine (txtM : σ → List Char) (Gen : σ → List Char → Prop) (None : σ → Prop) (several : Bool) (s : σ) (t : List Char) : Prop :=
  (∃ g, Gen s g ∧ t = lab several (txtM s) ": ".toList ++ g ++ ['\n']) ∨
  (None s ∧ t = lab several (txtM s) ": ".toList ++ "Generator not found.\n".toList)

variable (hp : ∀ cs s, LitM cs s → ∃ m, Prints (par cs) [] m ∧ T.shM m = ok (txtM s) ∧
    ((∃ g t, T.gen m = ok (some g) ∧ T.sh g = ok t ∧ Gen s t) ∨ (T.gen m = ok none ∧ None s)))
  (hdis : ∀ s t, Gen s t → ¬ None s)
include hp hdis

theorem gens_prints {several : Bool} {args : List (List Char)} {ss : List σ} (h : List.Forall₂ LitM args ss) (rv : Int) (rest : List (List Char)) :
    ∃ ts v, List.Forall₂ (GenLine txtM Gen None several) ss ts ∧ (((∀ s ∈ ss, ¬ None s) ∧ v = rv) ∨ ((∃ s ∈ ss, None s) ∧ v = 1)) ∧
      ∃ f : Cmd Unit, gens par T several rv (args ++ rest) = (do f; gens par T several v rest) ∧ Prints f ts.flatten () := by
  induction h generalizing rv with
  | nil => exact ⟨[], rv, .nil, .inl ⟨by simp, rfl⟩, pure (), (pure_bind () fun _ => _).symm, prints_pure ()⟩
  | @cons cs s args ss h1 h2 ih =>
    obtain ⟨m, e1, e2, h | h⟩ := hp cs s h1
    · obtain ⟨g, t, e3, e4, e5⟩ := h
      obtain ⟨ts, v, k1, k2, f, k3, k4⟩ := ih rv
      refine ⟨_ :: ts, v, .cons (.inl ⟨t, e5, rfl⟩) k1, ?_, (do rLabel several T.shM m; putLine T.sh g; f), ?_, ?_⟩
      · rcases k2 with k2 | ⟨⟨s', hs', k2⟩, k⟩
        · refine .inl ⟨fun s' hs' => ?_, k2.2⟩
          rcases List.mem_cons.1 hs' with rfl | hs'
          · exact hdis _ _ e5
          · exact k2.1 s' hs'
        · exact .inr ⟨⟨s', by simp [hs'], k2⟩, k⟩
      · show (par cs >>= fun m => _) = _
        rw [skip e1, skip (prints_lift e3), bind_assoc]
        congr 1
        funext _
        show (putLine T.sh g >>= fun _ => gens par T several rv (args ++ rest)) = _
        rw [k3, bind_assoc]
      · exact ((rLabel_prints several e2).bind ((putLine_prints e4).bind k4)).of_eq (by rw [List.flatten_cons]; simp only [List.append_assoc])
    · obtain ⟨ts, v, k1, k2, f, k3, k4⟩ := ih 1
      refine ⟨_ :: ts, v, .cons (.inr ⟨h.2, rfl⟩) k1, .inr ⟨⟨s, by simp, h.2⟩, ?_⟩,
        (do rLabel several T.shM m; out "Generator not found.\n".toList; f), ?_, ?_⟩
      · rcases k2 with k2 | k2
        · exact k2.2
        · exact k2.2
      · show (par cs >>= fun m => _) = _
        rw [skip e1, skip (prints_lift h.1), bind_assoc]
        congr 1
        funext _
        show (out "Generator not found.\n".toList >>= fun _ => gens par T several 1 (args ++ rest)) = _
        rw [k3, bind_assoc]
      · exact ((rLabel_prints several e2).bind ((prints_out _).bind k4)).of_eq (by rw [List.flatten_cons]; simp only [List.append_assoc])

/-- The value of the command is 1 if a generator was missing for some modulus. -/
theorem find_gen_prints {args : List (List Char)} {ss : List σ} (hne : args ≠ []) (h : List.Forall₂ LitM args ss) :
    ∃ ts v, List.Forall₂ (GenLine txtM Gen None (1 < args.length)) ss ts ∧ Prints (rFindGen par T args) ts.flatten v ∧
      ((v = 0 ∧ ∀ s ∈ ss, ¬ None s) ∨ (v = 1 ∧ ∃ s ∈ ss, None s)) := by
  obtain ⟨ts, v, k1, k2, f, k3, k4⟩ := gens_prints hp hdis (several := 1 < args.length) h 0 []
  refine ⟨ts, v, k1, ?_, ?_⟩
  · have e : rFindGen par T args = gens par T (1 < args.length) 0 args := by
      obtain ⟨z, r, rfl⟩ := List.exists_cons_of_ne_nil hne
      rfl
    rw [List.append_nil] at k3
    rw [e, k3]
    exact (k4.bind (prints_pure v)).of_eq (List.append_nil _)
  · rcases k2 with k | k
    · exact .inl ⟨k.2, k.1⟩
    · exact .inr ⟨k.2, k.1⟩

theorem find_gen_exits {pre post : List (List Char)} {bad : List Char} {ss : List σ} (h : List.Forall₂ LitM pre ss) (hbad : Exits (par bad) []) :
    ∃ ts, List.Forall₂ (GenLine txtM Gen None (1 < (pre ++ bad :: post).length)) ss ts ∧ Exits (rFindGen par T (pre ++ bad :: post)) ts.flatten := by
  obtain ⟨ts, v, k1, k2, f, k3, k4⟩ := gens_prints hp hdis (several := 1 < (pre ++ bad :: post).length) h 0 (bad :: post)
  refine ⟨ts, k1, ?_⟩
  have e : rFindGen par T (pre ++ bad :: post) = gens par T (1 < (pre ++ bad :: post).length) 0 (pre ++ bad :: post) := by
    obtain ⟨z, r, hz⟩ := List.exists_cons_of_ne_nil (show pre ++ bad :: post ≠ [] by simp)
    rw [hz]
    rfl
  rw [e, k3]
  exact (k4.bind_exits hbad.bind).of_eq (List.append_nil _)

/-- The search for a generator of the modulus after `pre` throws: the program ends after the label. -/
theorem find_gen_throws {pre post : List (List Char)} {bad : List Char} {ss : List σ} {m : μ} {t : List Char} (h : List.Forall₂ LitM pre ss)
    (hbad : Prints (par bad) [] m) (hsh : T.shM m = ok t) (hgen : T.gen m = .throw) :
    ∃ ts, List.Forall₂ (GenLine txtM Gen None (1 < (pre ++ bad :: post).length)) ss ts ∧
      ThrowsC (rFindGen par T (pre ++ bad :: post)) (ts.flatten ++ lab (1 < (pre ++ bad :: post).length) t ": ".toList) := by
  obtain ⟨ts, v, k1, k2, f, k3, k4⟩ := gens_prints hp hdis (several := 1 < (pre ++ bad :: post).length) h 0 (bad :: post)
  refine ⟨ts, k1, ?_⟩
  have e : rFindGen par T (pre ++ bad :: post) = gens par T (1 < (pre ++ bad :: post).length) 0 (pre ++ bad :: post) := by
    obtain ⟨z, r, hz⟩ := List.exists_cons_of_ne_nil (show pre ++ bad :: post ≠ [] by simp)
    rw [hz]
    rfl
  rw [e, k3]
  refine k4.bind_throws (hbad.then_throws ?_)
  exact ((rLabel_prints _ hsh).bind_throws (throws_lift hgen).bind).of_eq (List.append_nil _)

end
end Spffl.Cmd
