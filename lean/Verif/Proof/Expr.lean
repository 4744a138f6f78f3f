import Verif.Model.Expr
import Mathlib.Data.List.Basic

/-!
# The expression evaluators against a grammar

`Gram`, `Tree`, `Derives` and `eval` are the specification: which argument lists are expressions, what tree each stands
for, and what the tree evaluates to.  They do not mention the parser.
-/

namespace Spffl.Expr
open Res

/-! ### Grammar -/

/-- Abstract syntax.  A unary plus leaves no trace in it. -/
inductive Tree
  | lit (s : String) | un (o : Op) (t : Tree) | bin (o : Op) (t u : Tree)
deriving DecidableEq, Repr

/-- The spellings in which the three evaluators differ. -/
structure Gram where
  pre : List (String × Op)
  mul : List (String × Op)
  ord : List (String × Op)
  eqs : List (String × Op)

def addTable : List (String × Op) := [("+", .plus), ("-", .minus)]

/-- Any argument that is not an operator or a bracket is a literal. -/
def Gram.IsLit (G : Gram) (s : String) : Prop :=
  s ∉ ["(", "[", ")", "]", "^"] ∧ s ∉ (addTable ++ G.pre ++ G.mul ++ G.ord ++ G.eqs).map Prod.fst

/-- Precedence levels, tightest first. -/
inductive Lvl | P | U | F | T | E | C | Q

/-- `Derives G L t ts`: the arguments `ts` are an expression of level `L` with tree `t`.  All binary operators
associate to the left. -/
inductive Derives (G : Gram) : Lvl → Tree → List String → Prop
  | lit {s} : G.IsLit s → Derives G .P (.lit s) [s]
  | paren {l r t ts} : l ∈ ["(", "["] → r ∈ [")", "]"] → Derives G .E t ts → Derives G .P t (l :: (ts ++ [r]))
  | ofP {t ts} : Derives G .P t ts → Derives G .U t ts
  | pow {t u a b} : Derives G .U t a → Derives G .P u b → Derives G .U (.bin .exp t u) (a ++ "^" :: b)
  | ofU {t ts} : Derives G .U t ts → Derives G .F t ts
  | pos {t ts} : Derives G .U t ts → Derives G .F t ("+" :: ts)
  | neg {t ts} : Derives G .U t ts → Derives G .F (.un .uminus t) ("-" :: ts)
  | pre {s o t ts} : (s, o) ∈ G.pre → Derives G .U t ts → Derives G .F (.un o t) (s :: ts)
  | ofF {t ts} : Derives G .F t ts → Derives G .T t ts
  | mul {s o t u a b} : (s, o) ∈ G.mul → Derives G .T t a → Derives G .F u b → Derives G .T (.bin o t u) (a ++ s :: b)
  | ofT {t ts} : Derives G .T t ts → Derives G .E t ts
  | add {s o t u a b} : (s, o) ∈ addTable → Derives G .E t a → Derives G .T u b →
      Derives G .E (.bin o t u) (a ++ s :: b)
  | ofE {t ts} : Derives G .E t ts → Derives G .C t ts
  | ord {s o t u a b} : (s, o) ∈ G.ord → Derives G .C t a → Derives G .E u b → Derives G .C (.bin o t u) (a ++ s :: b)
  | ofC {t ts} : Derives G .C t ts → Derives G .Q t ts
  | eqs {s o t u a b} : (s, o) ∈ G.eqs → Derives G .Q t a → Derives G .C u b → Derives G .Q (.bin o t u) (a ++ s :: b)

variable {A : Type}

/-- Evaluation, left operand first.  Literals to the right of `^` are read as ints. -/
def eval (D : Dialect A) : Bool → Tree → Res A
  | m, .lit s => if m then D.scanI s else D.scan s
  | m, .un o t => do
    let a ← eval D m t
    D.un o a
  | m, .bin o t u => do
    let a ← eval D m t
    let b ← eval D (m || o = .exp) u
    D.bin o a b

/-- The dialect recognises exactly the spellings of the grammar. -/
structure Fits (D : Dialect A) (G : Gram) : Prop where
  lit : ∀ s, G.IsLit s ↔ D.cls s = none
  lp : ∀ s, s ∈ ["(", "["] ↔ D.cls s = some .lparen
  rp : ∀ s, s ∈ [")", "]"] ↔ D.cls s = some .rparen
  exp : ∀ s, s = "^" ↔ D.cls s = some (.op .exp)
  add : ∀ s o, (s, o) ∈ addTable ↔ D.cls s = some (.op o) ∧ isAdd o = true
  pre : ∀ s o, (s, o) ∈ G.pre ↔ D.cls s = some (.op o) ∧ D.pre o = true
  mul : ∀ s o, (s, o) ∈ G.mul ↔ D.cls s = some (.op o) ∧ D.mul o = true
  ord : ∀ s o, (s, o) ∈ G.ord ↔ D.cls s = some (.op o) ∧ D.ord o = true
  eqs : ∀ s o, (s, o) ∈ G.eqs ↔ D.cls s = some (.op o) ∧ D.eqs o = true
  dpre : ∀ o, D.pre o = true → isAdd o = false
  dmul : ∀ o, D.mul o = true → o ≠ .exp
  dadd : ∀ o, isAdd o = true → D.mul o = false
  dord : ∀ o, D.ord o = true → o ≠ .exp ∧ D.mul o = false ∧ isAdd o = false
  deqs : ∀ o, D.eqs o = true → o ≠ .exp ∧ D.mul o = false ∧ isAdd o = false ∧ D.ord o = false

variable {D : Dialect A} {G : Gram}

/-! ### Every expression is parsed to its value -/

theorem lexan_some {s : String} {y : Sym} (h : D.cls s = some y) (pow : Nat) (r : List String) :
    lexan D pow (s :: r) = ok ⟨r, .sym y, pow⟩ := by simp [lexan, h]

theorem lexan_none {s : String} (h : D.cls s = none) (pow : Nat) (r : List String) :
    lexan D pow (s :: r) = (scanLit D pow s >>= fun a => ok ⟨r, .num a, pow⟩) := by simp [lexan, h]

/-- What may follow an expression: the end, a closing bracket, or an operator that does not bind into it. -/
def Stop (D : Dialect A) (excl : Op → Bool) : List String → Prop
  | [] => True
  | s :: _ => D.cls s = some .rparen ∨ ∃ o, D.cls s = some (.op o) ∧ excl o = false

theorem lexan_stop {excl : Op → Bool} {k : List String} (h : Stop D excl k) :
    ∃ tok, (∀ pow, lexan D pow k = ok ⟨k.tail, tok, pow⟩) ∧
      (tok = .eol ∨ tok = .sym .rparen ∨ ∃ o, tok = .sym (.op o) ∧ excl o = false) := by
  cases k with
  | nil => exact ⟨.eol, fun _ => rfl, .inl rfl⟩
  | cons s r =>
    rcases h with h | ⟨o, h, ho⟩
    · exact ⟨.sym .rparen, fun _ => by simp [lexan, h], .inr (.inl rfl)⟩
    · exact ⟨.sym (.op o), fun _ => by simp [lexan, h], .inr (.inr ⟨o, rfl, ho⟩)⟩

theorem Stop.mono {e e' : Op → Bool} {k : List String} (h : Stop D e k) (he : ∀ o, e o = false → e' o = false) :
    Stop D e' k := by
  cases k with
  | nil => trivial
  | cons s r =>
    rcases h with h | ⟨o, h, ho⟩
    · exact .inl h
    · exact .inr ⟨o, h, he o ho⟩

def Works (D : Dialect A) (p : Nat → St A → Res (St A)) (excl : Op → Bool) (t : Tree) (ts : List String) : Prop :=
  ∀ n, ts.length ≤ n → ∀ k, Stop D excl k → ∀ pow stk,
    (lexan D pow (ts ++ k) >>= fun c => p n (c, stk)) =
      (eval D (decide (pow ≠ 0)) t >>= fun v => lexan D pow k >>= fun c => ok (c, v :: stk))

/-- Applying the operators of a spine to a first value. -/
def evalSpine (D : Dialect A) (m : Bool) : List (String × Op × Tree × List String) → A → Res A
  | [], v => ok v
  | x :: l, v => do
    let b ← eval D (m || x.2.1 = .exp) x.2.2.1
    let w ← D.bin x.2.1 v b
    evalSpine D m l w

def flat (l : List (String × Op × Tree × List String)) : List String := l.flatMap fun x => x.1 :: x.2.2.2

def treeOf (t : Tree) (l : List (String × Op × Tree × List String)) : Tree :=
  l.foldl (fun t x => .bin x.2.1 t x.2.2.1) t

theorem eval_treeOf (m : Bool) (l : List (String × Op × Tree × List String)) (t : Tree) :
    eval D m (treeOf t l) = eval D m t >>= evalSpine D m l := by
  induction l generalizing t with
  | nil => simp [treeOf, evalSpine]; cases eval D m t <;> rfl
  | cons x l ih =>
    show eval D m (treeOf (.bin x.2.1 t x.2.2.1) l) = _
    rw [ih]
    simp only [eval, evalSpine, bind_assoc]

def Spine (D : Dialect A) (is : Op → Bool) (good : Tree → List String → Prop) (t : Tree) (ts : List String) : Prop :=
  ∃ t0 ts0, ∃ l : List (String × Op × Tree × List String), good t0 ts0 ∧
    (∀ x ∈ l, D.cls x.1 = some (.op x.2.1) ∧ is x.2.1 = true ∧ good x.2.2.1 x.2.2.2) ∧
    t = treeOf t0 l ∧ ts = ts0 ++ flat l

theorem Spine.base {is : Op → Bool} {good : Tree → List String → Prop} {t : Tree} {ts : List String} (h : good t ts) :
    Spine D is good t ts := ⟨t, ts, [], h, by simp, rfl, by simp [flat]⟩

theorem Spine.snoc {is : Op → Bool} {good : Tree → List String → Prop} {t u : Tree} {a b : List String} {s : String}
    {o : Op} (h : Spine D is good t a) (hc : D.cls s = some (.op o)) (ho : is o = true) (hu : good u b) :
    Spine D is good (.bin o t u) (a ++ s :: b) := by
  obtain ⟨t0, ts0, l, h0, hl, rfl, rfl⟩ := h
  refine ⟨t0, ts0, l ++ [(s, o, u, b)], h0, ?_, ?_, ?_⟩
  · intro x hx
    rcases List.mem_append.mp hx with hx | hx
    · exact hl x hx
    · rw [List.mem_singleton.mp hx]; exact ⟨hc, ho, hu⟩
  · simp [treeOf]
  · simp [flat]

theorem stop_flat {is excl : Op → Bool} {good : Tree → List String → Prop} (hd : ∀ o, is o = true → excl o = false)
    {l : List (String × Op × Tree × List String)}
    (hl : ∀ x ∈ l, D.cls x.1 = some (.op x.2.1) ∧ is x.2.1 = true ∧ good x.2.2.1 x.2.2.2) {k : List String}
    (hk : Stop D excl k) : Stop D excl (flat l ++ k) := by
  cases l with
  | nil => exact hk
  | cons x l =>
    have := hl x (by simp)
    exact .inr ⟨x.2.1, this.1, hd _ this.2.1⟩

theorem flat_cons (x : String × Op × Tree × List String) (l) : flat (x :: l) = x.1 :: (x.2.2.2 ++ flat l) := by
  simp [flat]

/-- The loop of `T`, `E`, `C` and `Q` on a spine. -/
theorem binLoop_spine {is excl : Op → Bool} {p : Nat → St A → Res (St A)} (hd : ∀ o, is o = true → excl o = false)
    (hx : ∀ o, is o = true → o ≠ .exp) (n : Nat) :
    ∀ (l : List (String × Op × Tree × List String)),
      (∀ x ∈ l, D.cls x.1 = some (.op x.2.1) ∧ is x.2.1 = true ∧ Works D p excl x.2.2.1 x.2.2.2) →
      (flat l).length ≤ n → ∀ m, l.length < m → ∀ k, Stop D (fun o => excl o || is o) k → ∀ pow v stk,
      (lexan D pow (flat l ++ k) >>= fun c => binLoop D is (p n) m (c, v :: stk)) =
        (evalSpine D (decide (pow ≠ 0)) l v >>= fun v => lexan D pow k >>= fun c => ok (c, v :: stk)) := by
  intro l
  induction l with
  | nil =>
    intro _ _ m hm k hk pow v stk
    obtain ⟨m, rfl⟩ : ∃ m', m = m' + 1 := ⟨m - 1, by simp at hm; omega⟩
    obtain ⟨tok, h1, h2⟩ := lexan_stop hk
    simp only [flat, List.flatMap_nil, List.nil_append, h1, ok_bind, evalSpine]
    rcases h2 with rfl | rfl | ⟨o, rfl, ho⟩
    · rfl
    · rfl
    · have : is o = false := by simp at ho; exact ho.2
      simp [binLoop, this]
  | cons x l ih =>
    intro hl hlen m hm k hk pow v stk
    obtain ⟨m, rfl⟩ : ∃ m', m = m' + 1 := ⟨m - 1, by simp at hm; omega⟩
    obtain ⟨hc, ho, hw⟩ := hl x (by simp)
    have hl' : ∀ x ∈ l, D.cls x.1 = some (.op x.2.1) ∧ is x.2.1 = true ∧ Works D p excl x.2.2.1 x.2.2.2 :=
      fun y hy => hl y (by simp [hy])
    rw [flat_cons] at hlen ⊢
    simp only [List.length_cons, List.length_append] at hlen hm
    have hst : Stop D excl (flat l ++ k) :=
      stop_flat hd hl' (hk.mono fun o h => by simp at h; exact h.1)
    have e1 : lexan D pow (x.1 :: (x.2.2.2 ++ flat l) ++ k) = ok ⟨x.2.2.2 ++ (flat l ++ k), .sym (.op x.2.1), pow⟩ := by
      simp [lexan, hc]
    rw [e1]
    simp only [ok_bind]
    unfold binLoop
    simp only [ho, if_true]
    have hw1 := hw n (by omega) _ hst pow (v :: stk)
    have e2 : (lexan D pow (x.2.2.2 ++ (flat l ++ k)) >>= fun c => (p n (c, v :: stk)) >>= fun s =>
        emit2 D x.2.1 s.2 >>= fun k => binLoop D is (p n) m (s.1, k)) =
        ((lexan D pow (x.2.2.2 ++ (flat l ++ k)) >>= fun c => p n (c, v :: stk)) >>= fun s =>
        emit2 D x.2.1 s.2 >>= fun k => binLoop D is (p n) m (s.1, k)) := by
      simp only [bind_assoc]
    rw [e2, hw1]
    have hne : (decide (pow ≠ 0) || decide (x.2.1 = Op.exp)) = decide (pow ≠ 0) := by simp [hx _ ho]
    simp only [evalSpine, bind_assoc, ok_bind, hne]
    congr 1
    funext w
    have hw2 := fun v => ih hl' (by omega) m (by omega) k hk pow v stk
    obtain ⟨tok, h1, _⟩ := lexan_stop hst
    simp only [h1, ok_bind, emit2, bind_assoc]
    congr 1
    funext y
    have := hw2 y
    simp only [h1, ok_bind] at this
    exact this

theorem length_le_flat (l : List (String × Op × Tree × List String)) : l.length ≤ (flat l).length := by
  induction l with
  | nil => simp
  | cons x l ih => rw [flat_cons]; simp; omega

theorem spine_works {is excl : Op → Bool} {p : Nat → St A → Res (St A)} (hd : ∀ o, is o = true → excl o = false)
    (hx : ∀ o, is o = true → o ≠ .exp) {t : Tree} {ts : List String} (h : Spine D is (Works D p excl) t ts) :
    Works D (fun n => level D is (p n) (n + 1)) (fun o => excl o || is o) t ts := by
  obtain ⟨t0, ts0, l, h0, hl, rfl, rfl⟩ := h
  intro n hn k hk pow stk
  have hst : Stop D excl (flat l ++ k) := stop_flat hd hl (hk.mono fun o h => by simp at h; exact h.1)
  rw [List.length_append] at hn
  have h1 := h0 n (by omega) _ hst pow stk
  have hlen := length_le_flat l
  have e : (lexan D pow (ts0 ++ flat l ++ k) >>= fun c => level D is (p n) (n + 1) (c, stk)) =
      ((lexan D pow (ts0 ++ (flat l ++ k)) >>= fun c => p n (c, stk)) >>= binLoop D is (p n) (n + 1)) := by
    simp only [level, bind_assoc, List.append_assoc]
  rw [e, h1, eval_treeOf]
  simp only [bind_assoc, ok_bind]
  congr 1
  funext v
  exact binLoop_spine hd hx n l hl (by omega) (n + 1) (by omega) k hk pow v stk

/-- The loop of `U` on a spine. -/
theorem uLoop_spine {p : Nat → St A → Res (St A)} (n : Nat) :
    ∀ (l : List (String × Op × Tree × List String)),
      (∀ x ∈ l, D.cls x.1 = some (.op x.2.1) ∧ decide (x.2.1 = Op.exp) = true ∧
        Works D p (fun _ => false) x.2.2.1 x.2.2.2) →
      (flat l).length ≤ n → ∀ m, l.length < m → ∀ k, Stop D (fun o => decide (o = .exp)) k → ∀ pow v stk,
      (lexan D pow (flat l ++ k) >>= fun c => uLoop D (p n) m (c, v :: stk)) =
        (evalSpine D (decide (pow ≠ 0)) l v >>= fun v => lexan D pow k >>= fun c => ok (c, v :: stk)) := by
  intro l
  induction l with
  | nil =>
    intro _ _ m hm k hk pow v stk
    obtain ⟨m, rfl⟩ : ∃ m', m = m' + 1 := ⟨m - 1, by simp at hm; omega⟩
    obtain ⟨tok, h1, h2⟩ := lexan_stop hk
    simp only [flat, List.flatMap_nil, List.nil_append, h1, ok_bind, evalSpine]
    rcases h2 with rfl | rfl | ⟨o, rfl, ho⟩
    · rfl
    · rfl
    · have : o ≠ Op.exp := by simpa using ho
      unfold uLoop
      split
      · rename_i h; injection h with h; injection h with h; exact absurd h this
      · rfl
  | cons x l ih =>
    intro hl hlen m hm k hk pow v stk
    obtain ⟨m, rfl⟩ : ∃ m', m = m' + 1 := ⟨m - 1, by simp at hm; omega⟩
    obtain ⟨hc, ho, hw⟩ := hl x (by simp)
    have hl' : ∀ x ∈ l, D.cls x.1 = some (.op x.2.1) ∧ decide (x.2.1 = Op.exp) = true ∧
        Works D p (fun _ => false) x.2.2.1 x.2.2.2 := fun y hy => hl y (by simp [hy])
    rw [flat_cons] at hlen ⊢
    simp only [List.length_cons, List.length_append] at hlen hm
    have ho' : x.2.1 = Op.exp := by simpa using ho
    have hst : Stop D (fun _ => false) (flat l ++ k) :=
      stop_flat (is := fun o => decide (o = Op.exp)) (fun _ _ => rfl) hl' (hk.mono fun o _ => rfl)
    have e1 : lexan D pow (x.1 :: (x.2.2.2 ++ flat l) ++ k) = ok ⟨x.2.2.2 ++ (flat l ++ k), .sym (.op .exp), pow⟩ := by
      simp [lexan, hc, ho']
    rw [e1]
    simp only [ok_bind]
    unfold uLoop
    simp only
    have hw1 := hw n (by omega) _ hst (pow + 1) (v :: stk)
    have e2 : (lexan D (pow + 1) (x.2.2.2 ++ (flat l ++ k)) >>= fun c => (p n (c, v :: stk)) >>= fun s =>
        emit2 D .exp s.2 >>= fun k => uLoop D (p n) m ({ s.1 with pow := s.1.pow - 1 }, k)) =
        ((lexan D (pow + 1) (x.2.2.2 ++ (flat l ++ k)) >>= fun c => p n (c, v :: stk)) >>= fun s =>
        emit2 D .exp s.2 >>= fun k => uLoop D (p n) m ({ s.1 with pow := s.1.pow - 1 }, k)) := by
      simp only [bind_assoc]
    rw [e2, hw1]
    have hne : (decide (pow ≠ 0) || decide (x.2.1 = Op.exp)) = true := by simp [ho']
    have hne' : decide (pow + 1 ≠ 0) = true := by simp
    simp only [evalSpine, bind_assoc, ok_bind, hne, hne']
    rw [ho']
    congr 1
    funext w
    have hw2 := fun v => ih hl' (by omega) m (by omega) k hk pow v stk
    obtain ⟨tok, h1, _⟩ := lexan_stop hst
    simp only [h1, ok_bind, emit2, bind_assoc]
    congr 1
    funext y
    have := hw2 y
    simp only [h1, ok_bind] at this
    exact this

theorem spineU_works {p : Nat → St A → Res (St A)} {t : Tree} {ts : List String}
    (h : Spine D (fun o => decide (o = .exp)) (Works D p (fun _ => false)) t ts) :
    Works D (fun n => pU D (p n) (n + 1)) (fun o => decide (o = .exp)) t ts := by
  obtain ⟨t0, ts0, l, h0, hl, rfl, rfl⟩ := h
  intro n hn k hk pow stk
  have hst : Stop D (fun _ => false) (flat l ++ k) :=
    stop_flat (is := fun o => decide (o = Op.exp)) (fun _ _ => rfl) hl (hk.mono fun o _ => rfl)
  rw [List.length_append] at hn
  have h1 := h0 n (by omega) _ hst pow stk
  have hlen := length_le_flat l
  have e : (lexan D pow (ts0 ++ flat l ++ k) >>= fun c => pU D (p n) (n + 1) (c, stk)) =
      ((lexan D pow (ts0 ++ (flat l ++ k)) >>= fun c => p n (c, stk)) >>= uLoop D (p n) (n + 1)) := by
    simp only [pU, bind_assoc, List.append_assoc]
  rw [e, h1, eval_treeOf]
  simp only [bind_assoc, ok_bind]
  congr 1
  funext v
  exact uLoop_spine n l hl (by omega) (n + 1) (by omega) k hk pow v stk

/-- The first argument of an expression of level `U`. -/
theorem head_U {L : Lvl} {t : Tree} {ts : List String} (h : Derives G L t ts) (hL : L = .U ∨ L = .P) :
    ∃ s r, ts = s :: r ∧ (G.IsLit s ∨ s ∈ ["(", "["]) := by
  induction h with
  | lit h => exact ⟨_, _, rfl, .inl h⟩
  | paren h _ _ => exact ⟨_, _, rfl, .inr h⟩
  | ofP _ ih => exact ih (.inr rfl)
  | pow _ _ ih _ =>
    obtain ⟨s, r, rfl, h⟩ := ih (.inl rfl)
    exact ⟨s, _, rfl, h⟩
  | _ => simp at hL

theorem pF_lift (H : Fits D G) {t : Tree} {ts : List String} (h : Derives G .U t ts) (u : St A → Res (St A))
    (pow : Nat) (k : List String) (stk : List A) :
    (lexan D pow (ts ++ k) >>= fun c => pF D u (c, stk)) = (lexan D pow (ts ++ k) >>= fun c => u (c, stk)) := by
  obtain ⟨s, r, rfl, hs⟩ := head_U h (.inl rfl)
  rcases hs with hs | hs
  · have := (H.lit s).1 hs
    simp only [List.cons_append, lexan_none this, bind_assoc, ok_bind]
    rfl
  · have := (H.lp s).1 hs
    simp only [List.cons_append, lexan_some this, ok_bind]
    rfl

def Goal (D : Dialect A) : Lvl → Tree → List String → Prop
  | .P => Works D (fun n => pP D (pE D n)) (fun _ => false)
  | .U => Spine D (fun o => decide (o = .exp)) (Works D (fun n => pP D (pE D n)) (fun _ => false))
  | .F => Works D (fun n => pF D (pU D (pP D (pE D n)) (n + 1))) (fun o => decide (o = .exp))
  | .T => Spine D D.mul (Works D (fun n => pF D (pU D (pP D (pE D n)) (n + 1))) (fun o => decide (o = .exp)))
  | .E => Spine D isAdd (Works D (fun n => pT D (pE D n) (n + 1)) (fun o => decide (o = .exp) || D.mul o))
  | .C => Spine D D.ord (Works D (fun n => pE D (n + 1)) (fun o => decide (o = .exp) || D.mul o || isAdd o))
  | .Q => Spine D D.eqs (Works D (fun n => pC D (n + 1)) (fun o => decide (o = .exp) || D.mul o || isAdd o || D.ord o))

theorem derives_goal (H : Fits D G) {L : Lvl} {t : Tree} {ts : List String} (h : Derives G L t ts) : Goal D L t ts := by
  have goalU : ∀ {t ts}, Goal D .U t ts →
      Works D (fun n => pU D (pP D (pE D n)) (n + 1)) (fun o => decide (o = .exp)) t ts := fun h => spineU_works h
  have goalT : ∀ {t ts}, Goal D .T t ts →
      Works D (fun n => pT D (pE D n) (n + 1)) (fun o => decide (o = .exp) || D.mul o) t ts := fun h =>
    spine_works (fun o ho => by simpa using H.dmul o ho) H.dmul h
  have goalE : ∀ {t ts}, Goal D .E t ts →
      Works D (fun n => pE D (n + 1)) (fun o => decide (o = .exp) || D.mul o || isAdd o) t ts := fun h =>
    spine_works (fun o ho => by
      have := H.dadd o ho
      rw [this]
      cases o <;> simp_all [isAdd]) (fun o ho => by cases o <;> simp_all [isAdd]) h
  have goalC : ∀ {t ts}, Goal D .C t ts →
      Works D (fun n => pC D (n + 1)) (fun o => decide (o = .exp) || D.mul o || isAdd o || D.ord o) t ts := fun h =>
    spine_works (fun o ho => by
      have := H.dord o ho
      simp [this]) (fun o ho => (H.dord o ho).1) h
  induction h with
  | @lit s h =>
    intro n hn k hk pow stk
    have hc := (H.lit s).1 h
    simp only [List.cons_append, List.nil_append, lexan_none hc, eval, bind_assoc, ok_bind, pP]
    by_cases hp : pow = 0 <;> simp [hp, scanLit]
  | @paren l r t ts hl hr hd ih =>
    intro n hn k hk pow stk
    have hcl := (H.lp l).1 hl
    have hcr := (H.rp r).1 hr
    simp only [List.length_cons, List.length_append, List.length_nil] at hn
    obtain ⟨n, rfl⟩ : ∃ m, n = m + 1 := ⟨n - 1, by omega⟩
    have h1 := goalE ih n (by omega) (r :: k) (.inl hcr) pow stk
    have hrk : lexan D pow (r :: k) = ok ⟨k, .sym .rparen, pow⟩ := by simp [lexan, hcr]
    rw [hrk] at h1
    simp only [ok_bind] at h1
    have e1 : lexan D pow (l :: (ts ++ [r]) ++ k) = ok ⟨ts ++ r :: k, .sym .lparen, pow⟩ := by
      simp [lexan, hcl]
    rw [e1]
    simp only [ok_bind, pP]
    rw [← bind_assoc, h1]
    simp only [bind_assoc, ok_bind, matchRparen]
  | ofP hd ih => exact Spine.base (D := D) (is := fun o => decide (o = .exp)) (good := Works D _ _) ih
  | pow hd hu ih1 ih2 => exact Spine.snoc (good := Works D _ _) (is := fun o => decide (o = .exp)) ih1 ((H.exp _).1 rfl) (by simp) ih2
  | ofU hd ih =>
    intro n hn k hk pow stk
    rw [pF_lift H hd]
    exact goalU ih n hn k hk pow stk
  | @pos t ts hd ih =>
    intro n hn k hk pow stk
    have hc := ((H.add "+" .plus).1 (by decide)).1
    simp only [List.length_cons] at hn
    simp only [List.cons_append, lexan_some hc, ok_bind, pF]
    exact goalU ih n (by omega) k hk pow stk
  | @neg t ts hd ih =>
    intro n hn k hk pow stk
    have hc := ((H.add "-" .minus).1 (by decide)).1
    simp only [List.length_cons] at hn
    simp only [List.cons_append, lexan_some hc, ok_bind, pF]
    have hg := goalU ih n (by omega) k hk pow stk
    simp only at hg
    rw [← bind_assoc, hg]
    obtain ⟨tok, h1, _⟩ := lexan_stop hk
    simp only [eval, bind_assoc, ok_bind, h1, emit1]
  | @pre s o t ts hs hd ih =>
    intro n hn k hk pow stk
    obtain ⟨hc, ho⟩ := (H.pre s o).1 hs
    have hna := H.dpre o ho
    simp only [List.length_cons] at hn
    simp only [List.cons_append, lexan_some hc, ok_bind]
    have e : pF D (pU D (pP D (pE D n)) (n + 1)) (⟨ts ++ k, .sym (.op o), pow⟩, stk) = (do
        let c ← lexan D pow (ts ++ k)
        let s ← pU D (pP D (pE D n)) (n + 1) (c, stk)
        let k ← emit1 D o s.2
        ok (s.1, k)) := by
      unfold pF
      split
      · rename_i h; injection h with h; injection h with h; subst h; simp [isAdd] at hna
      · rename_i h; injection h with h; injection h with h; subst h; simp [isAdd] at hna
      · rename_i h; injection h with h; injection h with h; subst h; simp [ho]
      · rename_i h1 h2 h3; exact absurd rfl (h3 o)
    have hg := goalU ih n (by omega) k hk pow stk
    simp only at hg
    rw [e, ← bind_assoc, hg]
    obtain ⟨tok, h1, _⟩ := lexan_stop hk
    simp only [eval, bind_assoc, ok_bind, h1, emit1]
  | ofF hd ih => exact Spine.base (D := D) (is := D.mul) (good := Works D _ _) ih
  | mul hs hd hu ih1 ih2 =>
    have := (H.mul _ _).1 hs
    exact Spine.snoc ih1 this.1 this.2 ih2
  | ofT hd ih => exact Spine.base (goalT ih)
  | add hs hd hu ih1 ih2 =>
    have := (H.add _ _).1 hs
    exact Spine.snoc ih1 this.1 this.2 (goalT ih2)
  | ofE hd ih => exact Spine.base (goalE ih)
  | ord hs hd hu ih1 ih2 =>
    have := (H.ord _ _).1 hs
    exact Spine.snoc ih1 this.1 this.2 (goalE ih2)
  | ofC hd ih => exact Spine.base (goalC ih)
  | eqs hs hd hu ih1 ih2 =>
    have := (H.eqs _ _).1 hs
    exact Spine.snoc ih1 this.1 this.2 (goalC ih2)

theorem derives_ne_nil {L : Lvl} {t : Tree} {ts : List String} (h : Derives G L t ts) : ts ≠ [] := by
  induction h with
  | ofP _ ih | ofU _ ih | ofF _ ih | ofT _ ih | ofE _ ih | ofC _ ih => exact ih
  | _ => simp

theorem parse_derives (H : Fits D G) {t : Tree} {ts : List String} (h : Derives G .Q t ts) :
    parse D ts = (eval D false t >>= fun v => ok [v]) := by
  have hg : Works D (fun n => pQ D (n + 1)) _ t ts :=
    spine_works (fun o ho => by
      have := H.deqs o ho
      simp [this]) (fun o ho => (H.deqs o ho).1) (derives_goal H h)
  have h1 := hg ts.length le_rfl [] trivial 0 []
  simp only [List.append_nil] at h1
  unfold parse
  have e : (lexan D 0 ts >>= fun c => topLoop D (ts.length + 2) (c, []) []) =
      (lexan D 0 ts >>= fun c => pQ D (ts.length + 1) (c, []) >>= fun s => popResult s.2 >>= fun v =>
        matchEol D s.1 >>= fun c => topLoop D (ts.length + 1) (c, v.2) ([] ++ [v.1])) := by
    cases ts with
    | nil => exact absurd rfl (derives_ne_nil h)
    | cons s r =>
      cases hs : D.cls s with
      | some y => simp only [lexan_some hs, ok_bind]; rfl
      | none => simp only [lexan_none hs, bind_assoc, ok_bind]; rfl
  rw [e, ← bind_assoc, h1]
  simp [lexan, popResult, matchEol, topLoop]

/-! ### Whatever is accepted is an expression -/

/-- Normal return with `P`, an exception, (only if `U`) undefined behaviour, or (only if `T`) no
return. -/
def Safe {α : Type} (U T : Prop) (r : Res α) (P : α → Prop) : Prop :=
  match r with
  | .ok a => P a
  | .throw => True
  | .ub => U
  | .timeout => T

variable {U T : Prop}

theorem Safe.bind {α β : Type} {r : Res α} {f : α → Res β} {P : α → Prop} {Q : β → Prop} (h : Safe U T r P)
    (hf : ∀ a, r = ok a → P a → Safe U T (f a) Q) : Safe U T (r >>= f) Q := by
  cases r with
  | ok a => exact hf a rfl h
  | throw => trivial
  | ub => exact h
  | timeout => exact h

theorem Safe.mono {α : Type} {r : Res α} {P Q : α → Prop} (h : Safe U T r P) (hpq : ∀ a, P a → Q a) : Safe U T r Q := by
  cases r with
  | ok a => exact hpq a h
  | throw => trivial
  | ub => exact h
  | timeout => exact h

/-- No operation of the dialect diverges unless `T`, and none runs into undefined behaviour unless `U`, as long as the literals
are among those of `L` and the values among those of `I`, which the operations do not leave. -/
structure OpsSafe (U T : Prop) (D : Dialect A) (L : String → Prop) (I : A → Prop) : Prop where
  scan : ∀ s, L s → Safe U T (D.scan s) I
  scanI : ∀ s, L s → Safe U T (D.scanI s) I
  un : ∀ o a, I a → Safe U T (D.un o a) I
  bin : ∀ o a b, I a → I b → Safe U T (D.bin o a b) I

variable {Lt : String → Prop} {I : A → Prop}

theorem Safe.get {α : Type} {r : Res α} {P : α → Prop} {a : α} (h : Safe U T r P) (e : r = ok a) : P a := by
  subst e; exact h

/-- Every value that an expression evaluates to is among those of `I`. -/
theorem eval_inv (S : OpsSafe U T D Lt I) {L : Lvl} {t : Tree} {ts : List String} (h : Derives G L t ts)
    (hl : ∀ s ∈ ts, Lt s) : ∀ {m : Bool} {v : A}, eval D m t = ok v → I v := by
  have hbin : ∀ {o : Op} {t u : Tree} {m : Bool} {v : A}, (∀ {m v}, eval D m t = ok v → I v) →
      (∀ {m v}, eval D m u = ok v → I v) → eval D m (.bin o t u) = ok v → I v := by
    intro o t u m v h1 h2 e
    simp only [eval] at e
    cases ht : eval D m t with
    | ok a =>
      rw [ht, ok_bind] at e
      cases hu : eval D (m || decide (o = .exp)) u with
      | ok b =>
        rw [hu, ok_bind] at e
        exact (S.bin o a b (h1 ht) (h2 hu)).get e
      | throw => rw [hu] at e; simp at e
      | ub => rw [hu] at e; simp at e
      | timeout => rw [hu] at e; simp at e
    | throw => rw [ht] at e; simp at e
    | ub => rw [ht] at e; simp at e
    | timeout => rw [ht] at e; simp at e
  have hun : ∀ {o : Op} {t : Tree} {m : Bool} {v : A}, (∀ {m v}, eval D m t = ok v → I v) →
      eval D m (.un o t) = ok v → I v := by
    intro o t m v h1 e
    simp only [eval] at e
    cases ht : eval D m t with
    | ok a =>
      rw [ht, ok_bind] at e
      exact (S.un o a (h1 ht)).get e
    | throw => rw [ht] at e; simp at e
    | ub => rw [ht] at e; simp at e
    | timeout => rw [ht] at e; simp at e
  induction h with
  | @lit s _ =>
    intro m v e
    simp only [eval] at e
    split at e
    · exact (S.scanI s (hl s (by simp))).get e
    · exact (S.scan s (hl s (by simp))).get e
  | paren _ _ _ ih => intro m v; exact ih fun s hs => hl s (by simp [hs])
  | ofP _ ih => intro m v; exact ih hl
  | ofU _ ih => intro m v; exact ih hl
  | ofF _ ih => intro m v; exact ih hl
  | ofT _ ih => intro m v; exact ih hl
  | ofE _ ih => intro m v; exact ih hl
  | ofC _ ih => intro m v; exact ih hl
  | pos _ ih => intro m v; exact ih fun s hs => hl s (by simp [hs])
  | neg _ ih => intro m v; exact hun (ih fun s hs => hl s (by simp [hs]))
  | pre _ _ ih => intro m v; exact hun (ih fun s hs => hl s (by simp [hs]))
  | pow _ _ ih1 ih2 =>
    intro m v
    exact hbin (ih1 fun s hs => hl s (by simp [hs])) (ih2 fun s hs => hl s (by simp [hs]))
  | mul _ _ _ ih1 ih2 =>
    intro m v
    exact hbin (ih1 fun s hs => hl s (by simp [hs])) (ih2 fun s hs => hl s (by simp [hs]))
  | add _ _ _ ih1 ih2 =>
    intro m v
    exact hbin (ih1 fun s hs => hl s (by simp [hs])) (ih2 fun s hs => hl s (by simp [hs]))
  | ord _ _ _ ih1 ih2 =>
    intro m v
    exact hbin (ih1 fun s hs => hl s (by simp [hs])) (ih2 fun s hs => hl s (by simp [hs]))
  | eqs _ _ _ ih1 ih2 =>
    intro m v
    exact hbin (ih1 fun s hs => hl s (by simp [hs])) (ih2 fun s hs => hl s (by simp [hs]))

theorem lexan_safe (S : OpsSafe U T D Lt I) (pow : Nat) (k : List String) (hl : ∀ s ∈ k, Lt s) :
    Safe U T (lexan D pow k) fun _ => True := by
  cases k with
  | nil => trivial
  | cons s r =>
    cases h : D.cls s with
    | some y => rw [lexan_some h]; trivial
    | none =>
      rw [lexan_none h]
      refine Safe.bind (P := fun _ => True) ?_ fun _ _ _ => trivial
      unfold scanLit
      split
      · exact (S.scanI s (hl s (by simp))).mono fun _ _ => trivial
      · exact (S.scan s (hl s (by simp))).mono fun _ _ => trivial

/-- The parser stands at `k`.  The token may have been read in the other mode; a literal read so is a syntax error. -/
def Pos (D : Dialect A) (pow : Nat) (k : List String) (c : Ctx A) : Prop :=
  c.pow = pow ∧ ∃ pw, lexan D pw k = ok { c with pow := pw }

theorem Pos.sym {pow : Nat} {k : List String} {c : Ctx A} (h : Pos D pow k c) {y : Sym} (ht : c.tok = .sym y) :
    ∃ s, k = s :: c.rest ∧ D.cls s = some y := by
  obtain ⟨_, pw, h⟩ := h
  cases k with
  | nil =>
    simp only [lexan, ok.injEq, Ctx.mk.injEq] at h
    rw [ht] at h; simp at h
  | cons s r =>
    cases hs : D.cls s with
    | some z =>
      rw [lexan_some hs] at h
      injection h with h
      rw [Ctx.mk.injEq] at h
      rw [ht] at h
      refine ⟨s, by rw [h.1], ?_⟩
      have := h.2.1
      injection this with this
      rw [← this, hs]
    | none =>
      rw [lexan_none hs] at h
      cases hr : scanLit D pw s with
      | ok a =>
        rw [hr] at h
        simp only [ok_bind, ok.injEq, Ctx.mk.injEq] at h
        rw [ht] at h; simp at h
      | throw => rw [hr] at h; simp at h
      | ub => rw [hr] at h; simp at h
      | timeout => rw [hr] at h; simp at h

theorem Pos.eol {pow : Nat} {k : List String} {c : Ctx A} (h : Pos D pow k c) (ht : c.tok = .eol) : k = [] := by
  obtain ⟨_, pw, h⟩ := h
  cases k with
  | nil => rfl
  | cons s r =>
    cases hs : D.cls s with
    | some z =>
      rw [lexan_some hs] at h
      injection h with h
      rw [Ctx.mk.injEq, ht] at h
      simp at h
    | none =>
      rw [lexan_none hs] at h
      cases hr : scanLit D pw s with
      | ok a =>
        rw [hr] at h
        simp only [ok_bind, ok.injEq, Ctx.mk.injEq] at h
        rw [ht] at h; simp at h
      | throw => rw [hr] at h; simp at h
      | ub => rw [hr] at h; simp at h
      | timeout => rw [hr] at h; simp at h

theorem lexan_pow {pow : Nat} {k : List String} {c : Ctx A} (h : lexan D pow k = ok c) : c.pow = pow := by
  cases k with
  | nil => simp [lexan] at h; rw [← h]
  | cons s r =>
    cases hs : D.cls s with
    | some z => rw [lexan_some hs] at h; injection h with h; rw [← h]
    | none =>
      rw [lexan_none hs] at h
      cases hr : scanLit D pow s with
      | ok a => rw [hr] at h; simp only [ok_bind, ok.injEq] at h; rw [← h]
      | throw => rw [hr] at h; simp at h
      | ub => rw [hr] at h; simp at h
      | timeout => rw [hr] at h; simp at h

theorem Pos.of_lexan {pow : Nat} {k : List String} {c : Ctx A} (h : lexan D pow k = ok c) : Pos D pow k c := by
  have := lexan_pow h
  refine ⟨this, pow, ?_⟩
  rw [h, ← this]

theorem lexan_num {pow : Nat} {k : List String} {c : Ctx A} (h : lexan D pow k = ok c) {a : A} (ht : c.tok = .num a) :
    ∃ s, k = s :: c.rest ∧ D.cls s = none ∧ scanLit D pow s = ok a := by
  cases k with
  | nil => simp [lexan] at h; rw [← h] at ht; simp at ht
  | cons s r =>
    cases hs : D.cls s with
    | some z => rw [lexan_some hs] at h; injection h with h; rw [← h] at ht; simp at ht
    | none =>
      rw [lexan_none hs] at h
      cases hr : scanLit D pow s with
      | ok b =>
        rw [hr] at h
        simp only [ok_bind, ok.injEq] at h
        rw [← h] at ht ⊢
        simp only [Tok.num.injEq] at ht
        exact ⟨s, rfl, hs, by rw [ht] at hr; exact hr⟩
      | throw => rw [hr] at h; simp at h
      | ub => rw [hr] at h; simp at h
      | timeout => rw [hr] at h; simp at h

/-- What a parsing function leaves behind: it has read an expression `a` of its level and pushed its value. -/
def Post (D : Dialect A) (G : Gram) (L : Lvl) (pow : Nat) (ts : List String) (stk : List A) (s' : St A) : Prop :=
  ∃ t a k v, ts = a ++ k ∧ Derives G L t a ∧ eval D (decide (pow ≠ 0)) t = ok v ∧ s'.2 = v :: stk ∧ Pos D pow k s'.1

def Sound (U T : Prop) (D : Dialect A) (Lt : String → Prop) (G : Gram) (L : Lvl) (p : St A → Res (St A)) (n : Nat) : Prop :=
  ∀ ts : List String, ts.length ≤ n → (∀ s ∈ ts, Lt s) → ∀ pow c stk, lexan D pow ts = ok c → Safe U T (p (c, stk)) (Post D G L pow ts stk)

theorem derives_pos {L : Lvl} {t : Tree} {ts : List String} (h : Derives G L t ts) : 0 < ts.length :=
  List.length_pos_iff.mpr (derives_ne_nil h)

theorem pP_sound (H : Fits D G) (S : OpsSafe U T D Lt I) {e : St A → Res (St A)} {n : Nat}
    (he : ∀ ts : List String, ts.length < n → (∀ s ∈ ts, Lt s) → ∀ pow c stk, lexan D pow ts = ok c →
      Safe U T (e (c, stk)) (Post D G .E pow ts stk)) : Sound U T D Lt G .P (pP D e) n := by
  intro ts hn hl pow c stk hc
  have hpow := lexan_pow hc
  unfold pP
  split
  · rename_i ht
    obtain ⟨s, rfl, hs⟩ := (Pos.of_lexan hc).sym ht
    simp only [List.length_cons] at hn
    have hl1 : ∀ x ∈ c.rest, Lt x := fun x hx => hl x (by simp [hx])
    refine Safe.bind (lexan_safe S _ _ hl1) fun c1 hc1 _ => ?_
    simp only [hpow] at hc1
    refine Safe.bind (he c.rest (by omega) hl1 pow c1 stk hc1) fun s1 _ h1 => ?_
    obtain ⟨t, a, k, v, hk, hd, hv, hs1, hp⟩ := h1
    unfold matchRparen
    split
    · rename_i ht1
      obtain ⟨r, rfl, hr⟩ := hp.sym ht1
      refine Safe.bind (lexan_safe S _ _ fun x hx => hl1 x (by rw [hk]; simp [hx])) fun c2 hc2 _ => ?_
      rw [hp.1] at hc2
      refine ⟨t, s :: (a ++ [r]), s1.1.rest, v, by simp [hk], .paren ((H.lp s).2 hs) ((H.rp r).2 hr) hd, hv, hs1,
        Pos.of_lexan hc2⟩
    · trivial
  · rename_i a ht
    obtain ⟨s, rfl, hs, hr⟩ := lexan_num hc ht
    refine Safe.bind (lexan_safe S _ _ fun x hx => hl x (by simp [hx])) fun c1 hc1 _ => ?_
    simp only [hpow] at hc1
    refine ⟨.lit s, [s], c.rest, a, rfl, .lit ((H.lit s).2 hs), ?_, rfl, Pos.of_lexan hc1⟩
    rw [← hr]
    simp [eval, scanLit]
  · trivial

theorem uLoop_sound (H : Fits D G) (S : OpsSafe U T D Lt I) {p : St A → Res (St A)} {n : Nat} (hp : Sound U T D Lt G .P p n) :
    ∀ (m : Nat) (k : List String), k.length < m → k.length ≤ n → (∀ s ∈ k, Lt s) → ∀ (pow : Nat) (c : Ctx A) (stk : List A) (v : A) (t : Tree)
      (a : List String), Derives G .U t a → (∀ s ∈ a, Lt s) → eval D (decide (pow ≠ 0)) t = ok v → Pos D pow k c →
      Safe U T (uLoop D p m (c, v :: stk)) (Post D G .U pow (a ++ k) stk) := by
  intro m
  induction m with
  | zero => intro k hk; omega
  | succ m ih =>
    intro k hm hn hl pow c stk v t a hd ha hv hpos
    have hexit : Post D G .U pow (a ++ k) stk (c, v :: stk) := ⟨t, a, k, v, rfl, hd, hv, rfl, hpos⟩
    unfold uLoop
    split
    · rename_i ht
      obtain ⟨s, rfl, hs⟩ := hpos.sym ht
      simp only [List.length_cons] at hm hn
      have hl1 : ∀ x ∈ c.rest, Lt x := fun x hx => hl x (by simp [hx])
      refine Safe.bind (lexan_safe S _ _ hl1) fun c1 hc1 _ => ?_
      simp only [hpos.1] at hc1
      refine Safe.bind (hp c.rest (by omega) hl1 (pow + 1) c1 (v :: stk) hc1) fun s1 _ h1 => ?_
      obtain ⟨u, b, k1, w, hk1, hdu, hw, hs1, hp1⟩ := h1
      rw [hs1]
      have hse : s = "^" := (H.exp s).2 hs
      unfold emit2
      simp only [bind_assoc, ok_bind]
      refine Safe.bind (S.bin _ _ _ (eval_inv S hd ha hv) (eval_inv S hdu (fun x hx => hl1 x (by rw [hk1]; simp [hx])) hw)) fun y hy _ => ?_
      have hlen : k1.length + b.length = c.rest.length := by rw [hk1, List.length_append, Nat.add_comm]
      have hpos' : Pos D pow k1 { s1.1 with pow := s1.1.pow - 1 } := by
        obtain ⟨h1, pw, h2⟩ := hp1
        exact ⟨by simp [h1], pw, h2⟩
      refine (ih k1 (by omega) (by omega) (fun x hx => hl1 x (by rw [hk1]; simp [hx])) pow _ stk y (.bin .exp t u) (a ++ s :: b) ?_ ?_ ?_ hpos').mono ?_
      · rw [hse]; exact .pow hd hdu
      · intro x hx
        simp only [List.mem_append, List.mem_cons] at hx
        rcases hx with hx | rfl | hx
        · exact ha x hx
        · exact hl x (by simp)
        · exact hl1 x (by rw [hk1]; simp [hx])
      · simp only [eval, hv, ok_bind]
        have : (decide (pow ≠ 0) || decide True) = decide (pow + 1 ≠ 0) := by simp
        rw [this, hw, ok_bind, hy]
      · intro s' hs'
        rw [hk1]
        simpa using hs'
    · exact hexit

theorem binLoop_sound (S : OpsSafe U T D Lt I) {is : Op → Bool} {L L' : Lvl} {p : St A → Res (St A)} {n : Nat}
    (hx : ∀ o, is o = true → o ≠ .exp)
    (hstep : ∀ s o t u a b, D.cls s = some (.op o) → is o = true → Derives G L t a → Derives G L' u b →
      Derives G L (.bin o t u) (a ++ s :: b))
    (hp : Sound U T D Lt G L' p n) :
    ∀ (m : Nat) (k : List String), k.length < m → k.length ≤ n → (∀ s ∈ k, Lt s) → ∀ (pow : Nat) (c : Ctx A) (stk : List A) (v : A) (t : Tree)
      (a : List String), Derives G L t a → (∀ s ∈ a, Lt s) → eval D (decide (pow ≠ 0)) t = ok v → Pos D pow k c →
      Safe U T (binLoop D is p m (c, v :: stk)) (Post D G L pow (a ++ k) stk) := by
  intro m
  induction m with
  | zero => intro k hk; omega
  | succ m ih =>
    intro k hm hn hl pow c stk v t a hd ha hv hpos
    have hexit : Post D G L pow (a ++ k) stk (c, v :: stk) := ⟨t, a, k, v, rfl, hd, hv, rfl, hpos⟩
    unfold binLoop
    split
    · rename_i o ht
      split
      · rename_i ho
        obtain ⟨s, rfl, hs⟩ := hpos.sym ht
        simp only [List.length_cons] at hm hn
        have hl1 : ∀ x ∈ c.rest, Lt x := fun x hx => hl x (by simp [hx])
        refine Safe.bind (lexan_safe S _ _ hl1) fun c1 hc1 _ => ?_
        simp only [hpos.1] at hc1
        refine Safe.bind (hp c.rest (by omega) hl1 pow c1 (v :: stk) hc1) fun s1 _ h1 => ?_
        obtain ⟨u, b, k1, w, hk1, hdu, hw, hs1, hp1⟩ := h1
        rw [hs1]
        unfold emit2
        simp only [bind_assoc, ok_bind]
        refine Safe.bind (S.bin _ _ _ (eval_inv S hd ha hv) (eval_inv S hdu (fun x hx => hl1 x (by rw [hk1]; simp [hx])) hw)) fun y hy _ => ?_
        have hlen : k1.length + b.length = c.rest.length := by rw [hk1, List.length_append, Nat.add_comm]
        refine (ih k1 (by omega) (by omega) (fun x hx => hl1 x (by rw [hk1]; simp [hx])) pow _ stk y (.bin o t u) (a ++ s :: b) (hstep _ _ _ _ _ _ hs ho hd hdu) ?_ ?_
          hp1).mono ?_
        · intro x hx
          simp only [List.mem_append, List.mem_cons] at hx
          rcases hx with hx | rfl | hx
          · exact ha x hx
          · exact hl x (by simp)
          · exact hl1 x (by rw [hk1]; simp [hx])
        · simp only [eval, hv, ok_bind]
          have : (decide (pow ≠ 0) || decide (o = Op.exp)) = decide (pow ≠ 0) := by simp [hx o ho]
          rw [this, hw, ok_bind, hy]
        · intro s' hs'
          rw [hk1]
          simpa using hs'
      · exact hexit
    · exact hexit

theorem pU_sound (H : Fits D G) (S : OpsSafe U T D Lt I) {p : St A → Res (St A)} {n : Nat} (hp : Sound U T D Lt G .P p n) :
    Sound U T D Lt G .U (pU D p (n + 1)) n := by
  intro ts hn hl pow c stk hc
  refine Safe.bind (hp ts hn hl pow c stk hc) fun s1 _ h1 => ?_
  obtain ⟨t, a, k, v, rfl, hd, hv, hs, hpos⟩ := h1
  rw [List.length_append] at hn
  have := uLoop_sound H S hp (n + 1) k (by omega) (by omega) (fun x hx => hl x (by simp [hx])) pow s1.1 stk v t a (.ofP hd)
    (fun x hx => hl x (by simp [hx])) hv hpos
  rwa [← hs] at this

theorem level_sound (S : OpsSafe U T D Lt I) {is : Op → Bool} {L L' : Lvl} {p : St A → Res (St A)} {n : Nat}
    (hx : ∀ o, is o = true → o ≠ .exp)
    (hstep : ∀ s o t u a b, D.cls s = some (.op o) → is o = true → Derives G L t a → Derives G L' u b →
      Derives G L (.bin o t u) (a ++ s :: b)) (hup : ∀ t a, Derives G L' t a → Derives G L t a)
    (hp : Sound U T D Lt G L' p n) : Sound U T D Lt G L (level D is p (n + 1)) n := by
  intro ts hn hl pow c stk hc
  refine Safe.bind (hp ts hn hl pow c stk hc) fun s1 _ h1 => ?_
  obtain ⟨t, a, k, v, rfl, hd, hv, hs, hpos⟩ := h1
  rw [List.length_append] at hn
  have := binLoop_sound S hx hstep hp (n + 1) k (by omega) (by omega) (fun x hx => hl x (by simp [hx])) pow s1.1 stk v t a
    (hup _ _ hd) (fun x hx => hl x (by simp [hx])) hv hpos
  rwa [← hs] at this

theorem pF_sound (H : Fits D G) (S : OpsSafe U T D Lt I) {u : St A → Res (St A)} {n : Nat} (hu : Sound U T D Lt G .U u n) :
    Sound U T D Lt G .F (pF D u) n := by
  intro ts hn hl pow c stk hc
  have hpow := lexan_pow hc
  have hdef : Safe U T (u (c, stk)) (Post D G .F pow ts stk) := (hu ts hn hl pow c stk hc).mono
    fun s' ⟨t, a, k, v, h1, h2, h3⟩ => ⟨t, a, k, v, h1, .ofU h2, h3⟩
  have hun : ∀ o s, ts = s :: c.rest → (∀ t a, Derives G .U t a → Derives G .F (.un o t) (s :: a)) →
      Safe U T (lexan D c.pow c.rest >>= fun c => u (c, stk) >>= fun s => emit1 D o s.2 >>= fun k => ok (s.1, k))
        (Post D G .F pow ts stk) := by
    intro o s hts hder
    rw [hts] at hn
    simp only [List.length_cons] at hn
    have hl1 : ∀ x ∈ c.rest, Lt x := fun x hx => hl x (by simp [hts, hx])
    refine Safe.bind (lexan_safe S _ _ hl1) fun c1 hc1 _ => ?_
    rw [hpow] at hc1
    refine Safe.bind (hu c.rest (by omega) hl1 pow c1 stk hc1) fun s1 _ h1 => ?_
    obtain ⟨t, a, k, v, h1, h2, h3, h4, h5⟩ := h1
    rw [h4]
    unfold emit1
    simp only [bind_assoc, ok_bind]
    refine Safe.bind (S.un _ _ (eval_inv S h2 (fun x hx => hl1 x (by rw [h1]; simp [hx])) h3)) fun y hy _ => ?_
    refine ⟨.un o t, s :: a, k, y, by rw [hts, h1]; rfl, hder t a h2, ?_, rfl, h5⟩
    simp only [eval, h3, ok_bind, hy]
  unfold pF
  split
  · rename_i ht
    obtain ⟨s, rfl, hs⟩ := (Pos.of_lexan hc).sym ht
    simp only [List.length_cons] at hn
    have hs' : s = "+" := by
      have := (H.add s .plus).2 ⟨hs, rfl⟩
      simpa [addTable] using this
    subst hs'
    have hl1 : ∀ x ∈ c.rest, Lt x := fun x hx => hl x (by simp [hx])
    refine Safe.bind (lexan_safe S _ _ hl1) fun c1 hc1 _ => ?_
    simp only [hpow] at hc1
    refine (hu c.rest (by omega) hl1 pow c1 stk hc1).mono ?_
    rintro s1 ⟨t, a, k, v, h1, h2, h3⟩
    exact ⟨t, "+" :: a, k, v, by rw [h1]; rfl, .pos h2, h3⟩
  · rename_i ht
    obtain ⟨s, hts, hs⟩ := (Pos.of_lexan hc).sym ht
    have hs' : s = "-" := by
      have := (H.add s .minus).2 ⟨hs, rfl⟩
      simpa [addTable] using this
    subst hs'
    exact hun .uminus "-" hts fun t a h => .neg h
  · rename_i o h1 h2 ht
    split
    · rename_i ho
      obtain ⟨s, hts, hs⟩ := (Pos.of_lexan hc).sym ht
      exact hun o s hts fun t a h => .pre ((H.pre s o).2 ⟨hs, ho⟩) h
    · exact hdef
  · exact hdef

theorem pT_sound (H : Fits D G) (S : OpsSafe U T D Lt I) {e : St A → Res (St A)} {n : Nat}
    (he : ∀ ts : List String, ts.length < n → (∀ s ∈ ts, Lt s) → ∀ pow c stk, lexan D pow ts = ok c →
      Safe U T (e (c, stk)) (Post D G .E pow ts stk)) : Sound U T D Lt G .T (pT D e (n + 1)) n :=
  level_sound S H.dmul (fun s o _ _ _ _ hs ho h1 h2 => .mul ((H.mul s o).2 ⟨hs, ho⟩) h1 h2) (fun _ _ h => .ofF h)
    (pF_sound H S (pU_sound H S (pP_sound H S he)))

theorem pE_sound (H : Fits D G) (S : OpsSafe U T D Lt I) (n : Nat) : Sound U T D Lt G .E (pE D (n + 1)) n := by
  induction n with
  | zero =>
    refine level_sound S (fun o ho => by cases o <;> simp_all [isAdd])
      (fun s o _ _ _ _ hs ho h1 h2 => .add ((H.add s o).2 ⟨hs, ho⟩) h1 h2) (fun _ _ h => .ofT h) (pT_sound H S ?_)
    intro ts h; exact absurd h (Nat.not_lt_zero _)
  | succ n ih =>
    refine level_sound S (fun o ho => by cases o <;> simp_all [isAdd])
      (fun s o _ _ _ _ hs ho h1 h2 => .add ((H.add s o).2 ⟨hs, ho⟩) h1 h2) (fun _ _ h => .ofT h) (pT_sound H S ?_)
    intro ts h
    exact ih ts (by omega)

theorem pQ_sound (H : Fits D G) (S : OpsSafe U T D Lt I) (n : Nat) : Sound U T D Lt G .Q (pQ D (n + 1)) n :=
  level_sound S (fun o ho => (H.deqs o ho).1) (fun s o _ _ _ _ hs ho h1 h2 => .eqs ((H.eqs s o).2 ⟨hs, ho⟩) h1 h2)
    (fun _ _ h => .ofC h)
    (level_sound S (fun o ho => (H.dord o ho).1) (fun s o _ _ _ _ hs ho h1 h2 => .ord ((H.ord s o).2 ⟨hs, ho⟩) h1 h2)
      (fun _ _ h => .ofE h) (pE_sound H S n))

theorem parse_sound (H : Fits D G) (S : OpsSafe U T D Lt I) (ts : List String) (hl : ∀ s ∈ ts, Lt s) :
    Safe U T (parse D ts) fun out => (ts = [] ∧ out = []) ∨
      ∃ t v, Derives G .Q t ts ∧ eval D false t = ok v ∧ out = [v] := by
  unfold parse
  refine Safe.bind (lexan_safe S _ _ hl) fun c hc _ => ?_
  cases ts with
  | nil =>
    simp only [lexan, ok.injEq] at hc
    rw [← hc]
    exact .inl ⟨rfl, rfl⟩
  | cons s r =>
    have hrest : c.rest.length + 2 = (s :: r).length + 1 := by
      cases hs : D.cls s with
      | some y => rw [lexan_some hs] at hc; injection hc with hc; rw [← hc]; rfl
      | none =>
        rw [lexan_none hs] at hc
        cases hr : scanLit D 0 s with
        | ok a => rw [hr] at hc; simp only [ok_bind, ok.injEq] at hc; rw [← hc]; rfl
        | throw => rw [hr] at hc; simp at hc
        | ub => rw [hr] at hc; simp at hc
        | timeout => rw [hr] at hc; simp at hc
    unfold topLoop
    split
    · rename_i ht
      have := (Pos.of_lexan hc).eol ht
      simp at this
    · simp only [hrest]
      refine Safe.bind (pQ_sound H S _ _ le_rfl hl 0 c [] hc) fun s1 _ h1 => ?_
      obtain ⟨t, a, k, v, hk, hd, hv, hs1, hp⟩ := h1
      rw [hs1]
      simp only [popResult, ok_bind]
      unfold matchEol
      split
      · rename_i ht
        have hk0 := hp.eol ht
        subst hk0
        have hr : s1.1.rest = [] := by
          obtain ⟨_, pw, h⟩ := hp
          simp only [lexan, ok.injEq, Ctx.mk.injEq] at h
          exact h.1.symm
        simp only [hr, lexan, ok_bind]
        rw [List.append_nil] at hk
        simp only [List.length_cons, topLoop]
        exact .inr ⟨t, v, hk ▸ hd, hv, rfl⟩
      · trivial

end Spffl.Expr
