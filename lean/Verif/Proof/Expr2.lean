import Verif.Proof.Expr
import Verif.Proof.CoefInst
import Mathlib.Algebra.Field.Basic

/-!
# The three evaluators, unambiguity, and evaluation in a field
-/

set_option linter.unusedSimpArgs false

namespace Spffl.Expr
open Res

/-! ### The three grammars -/

/-- `cmd_line_ops.h`. -/
def scalarG : Gram where
  pre := []
  mul := [("*", .mul), (".", .mul), ("/", .div), ("%", .mod)]
  ord := [("<", .lt), ("<=", .le), (">", .gt), (">=", .ge)]
  eqs := [("==", .eq), ("!=", .ne), ("/=", .ne)]

/-- `cmd_line_vector_ops.h`. -/
def vecG : Gram where
  pre := []
  mul := [("*", .mul), (".", .mul)]
  ord := []
  eqs := [("==", .eq), ("!=", .ne), ("/=", .ne)]

/-- `cmd_line_matrix_ops.h`. -/
def matG : Gram where
  pre := [("rank", .rank), ("det", .det), ("inv", .inv), ("kerbas", .kerbas), ("rr", .rr), ("rech", .rech),
    ("rechr", .rechr), ("rrnz", .rrnz), ("rechnz", .rechnz), ("transpose", .transpose)]
  mul := [("*", .mul), (".", .mul)]
  ord := []
  eqs := [("==", .eq), ("!=", .ne), ("/=", .ne)]

def scalarKeys : List String := ["+", "-", "*", ".", "/", "%", "^", "==", "!=", "/=", "<", "<=", ">", ">=", "(", ")", "[", "]"]

theorem scalarCls_none {s : String} (h : s ∉ scalarKeys) : scalarCls s = none := by
  simp only [scalarKeys, List.mem_cons, List.not_mem_nil, or_false, not_or] at h
  simp [scalarCls, h]

theorem scalar_fits {α : Type} (O : EOps α) (zero one : α) (scan : String → Res α) (scanI : String → Res Int) :
    Fits (scalar O zero one scan scanI) scalarG where
  lit s := by
    show _ ↔ scalarCls s = none
    by_cases h : s ∈ scalarKeys
    · have : ∀ s ∈ scalarKeys, (s ∉ ["(", "[", ")", "]", "^"] ∧
          s ∉ (addTable ++ scalarG.pre ++ scalarG.mul ++ scalarG.ord ++ scalarG.eqs).map Prod.fst) ↔ scalarCls s = none := by decide +kernel
      exact this s h
    · rw [scalarCls_none h]
      simp only [scalarKeys, List.mem_cons, List.not_mem_nil, or_false, not_or] at h
      simp [Gram.IsLit, scalarG, addTable, h]
  lp s := by
    show _ ↔ scalarCls s = _
    by_cases h : s ∈ scalarKeys
    · revert s; decide +kernel
    · rw [scalarCls_none h]
      simp only [scalarKeys, List.mem_cons, List.not_mem_nil, or_false, not_or] at h
      simp [h]
  rp s := by
    show _ ↔ scalarCls s = _
    by_cases h : s ∈ scalarKeys
    · revert s; decide +kernel
    · rw [scalarCls_none h]
      simp only [scalarKeys, List.mem_cons, List.not_mem_nil, or_false, not_or] at h
      simp [h]
  exp s := by
    show _ ↔ scalarCls s = _
    by_cases h : s ∈ scalarKeys
    · revert s; decide +kernel
    · rw [scalarCls_none h]
      simp only [scalarKeys, List.mem_cons, List.not_mem_nil, or_false, not_or] at h
      simp [h]
  add s o := by
    show _ ↔ scalarCls s = _ ∧ isAdd o = true
    by_cases h : s ∈ scalarKeys
    · have : ∀ s ∈ scalarKeys, ∀ o, (s, o) ∈ addTable ↔ scalarCls s = some (.op o) ∧ isAdd o = true := by
        intro s hs o
        revert s
        cases o <;> decide +kernel
      exact this s h o
    · rw [scalarCls_none h]
      simp only [scalarKeys, List.mem_cons, List.not_mem_nil, or_false, not_or] at h
      simp [scalarG, addTable, h]
  pre s o := by
    show _ ↔ _ ∧ false = true
    simp [scalarG]
  mul s o := by
    show _ ↔ scalarCls s = _ ∧ scalarMul o = true
    by_cases h : s ∈ scalarKeys
    · have : ∀ s ∈ scalarKeys, ∀ o, (s, o) ∈ scalarG.mul ↔ scalarCls s = some (.op o) ∧ scalarMul o = true := by
        intro s hs o
        revert s
        cases o <;> decide +kernel
      exact this s h o
    · rw [scalarCls_none h]
      simp only [scalarKeys, List.mem_cons, List.not_mem_nil, or_false, not_or] at h
      simp [scalarG, addTable, h]
  ord s o := by
    show _ ↔ scalarCls s = _ ∧ scalarOrd o = true
    by_cases h : s ∈ scalarKeys
    · have : ∀ s ∈ scalarKeys, ∀ o, (s, o) ∈ scalarG.ord ↔ scalarCls s = some (.op o) ∧ scalarOrd o = true := by
        intro s hs o
        revert s
        cases o <;> decide +kernel
      exact this s h o
    · rw [scalarCls_none h]
      simp only [scalarKeys, List.mem_cons, List.not_mem_nil, or_false, not_or] at h
      simp [scalarG, addTable, h]
  eqs s o := by
    show _ ↔ scalarCls s = _ ∧ isEq o = true
    by_cases h : s ∈ scalarKeys
    · have : ∀ s ∈ scalarKeys, ∀ o, (s, o) ∈ scalarG.eqs ↔ scalarCls s = some (.op o) ∧ isEq o = true := by
        intro s hs o
        revert s
        cases o <;> decide +kernel
      exact this s h o
    · rw [scalarCls_none h]
      simp only [scalarKeys, List.mem_cons, List.not_mem_nil, or_false, not_or] at h
      simp [scalarG, addTable, h]
  dpre o h := by
    have h : false = true := h
    cases o <;> simp_all [matPre, isAdd]
  dmul o h := by
    have h : scalarMul o = true := h
    cases o <;> simp_all [scalarMul]
  dadd o h := by
    show scalarMul o = false
    cases o <;> simp_all [scalarMul, isAdd]
  dord o h := by
    have h : scalarOrd o = true := h
    show _ ∧ scalarMul o = false ∧ _
    cases o <;> simp_all [scalarMul, isAdd, scalarOrd]
  deqs o h := by
    have h : isEq o = true := h
    show _ ∧ scalarMul o = false ∧ _ ∧ scalarOrd o = false
    cases o <;> simp_all [scalarMul, isAdd, isEq, scalarOrd]

def vecKeys : List String := ["+", "-", "*", ".", "^", "==", "!=", "/=", "(", ")", "[", "]"]

theorem vecCls_none {s : String} (h : s ∉ vecKeys) : vecCls s = none := by
  simp only [vecKeys, List.mem_cons, List.not_mem_nil, or_false, not_or] at h
  simp [vecCls, h]

theorem vec_fits {M α : Type} (O : VOps M) (scan : String → Res M) (scanI : String → Res Int) :
    Fits (vector (α := α) O scan scanI) vecG where
  lit s := by
    show _ ↔ vecCls s = none
    by_cases h : s ∈ vecKeys
    · have : ∀ s ∈ vecKeys, (s ∉ ["(", "[", ")", "]", "^"] ∧
          s ∉ (addTable ++ vecG.pre ++ vecG.mul ++ vecG.ord ++ vecG.eqs).map Prod.fst) ↔ vecCls s = none := by decide +kernel
      exact this s h
    · rw [vecCls_none h]
      simp only [vecKeys, List.mem_cons, List.not_mem_nil, or_false, not_or] at h
      simp [Gram.IsLit, vecG, addTable, h]
  lp s := by
    show _ ↔ vecCls s = _
    by_cases h : s ∈ vecKeys
    · revert s; decide +kernel
    · rw [vecCls_none h]
      simp only [vecKeys, List.mem_cons, List.not_mem_nil, or_false, not_or] at h
      simp [h]
  rp s := by
    show _ ↔ vecCls s = _
    by_cases h : s ∈ vecKeys
    · revert s; decide +kernel
    · rw [vecCls_none h]
      simp only [vecKeys, List.mem_cons, List.not_mem_nil, or_false, not_or] at h
      simp [h]
  exp s := by
    show _ ↔ vecCls s = _
    by_cases h : s ∈ vecKeys
    · revert s; decide +kernel
    · rw [vecCls_none h]
      simp only [vecKeys, List.mem_cons, List.not_mem_nil, or_false, not_or] at h
      simp [h]
  add s o := by
    show _ ↔ vecCls s = _ ∧ isAdd o = true
    by_cases h : s ∈ vecKeys
    · have : ∀ s ∈ vecKeys, ∀ o, (s, o) ∈ addTable ↔ vecCls s = some (.op o) ∧ isAdd o = true := by
        intro s hs o
        revert s
        cases o <;> decide +kernel
      exact this s h o
    · rw [vecCls_none h]
      simp only [vecKeys, List.mem_cons, List.not_mem_nil, or_false, not_or] at h
      simp [vecG, addTable, h]
  pre s o := by
    show _ ↔ _ ∧ false = true
    simp [vecG]
  mul s o := by
    show _ ↔ vecCls s = _ ∧ isMul o = true
    by_cases h : s ∈ vecKeys
    · have : ∀ s ∈ vecKeys, ∀ o, (s, o) ∈ vecG.mul ↔ vecCls s = some (.op o) ∧ isMul o = true := by
        intro s hs o
        revert s
        cases o <;> decide +kernel
      exact this s h o
    · rw [vecCls_none h]
      simp only [vecKeys, List.mem_cons, List.not_mem_nil, or_false, not_or] at h
      simp [vecG, addTable, h]
  ord s o := by
    show _ ↔ _ ∧ false = true
    simp [vecG]
  eqs s o := by
    show _ ↔ vecCls s = _ ∧ isEq o = true
    by_cases h : s ∈ vecKeys
    · have : ∀ s ∈ vecKeys, ∀ o, (s, o) ∈ vecG.eqs ↔ vecCls s = some (.op o) ∧ isEq o = true := by
        intro s hs o
        revert s
        cases o <;> decide +kernel
      exact this s h o
    · rw [vecCls_none h]
      simp only [vecKeys, List.mem_cons, List.not_mem_nil, or_false, not_or] at h
      simp [vecG, addTable, h]
  dpre o h := by
    have h : false = true := h
    cases o <;> simp_all [matPre, isAdd]
  dmul o h := by
    have h : isMul o = true := h
    cases o <;> simp_all [isMul]
  dadd o h := by
    show isMul o = false
    cases o <;> simp_all [isMul, isAdd]
  dord o h := by
    have h : false = true := h
    show _ ∧ isMul o = false ∧ _
    cases o <;> simp_all [isMul, isAdd, scalarOrd]
  deqs o h := by
    have h : isEq o = true := h
    show _ ∧ isMul o = false ∧ _ ∧ false = false
    cases o <;> simp_all [isMul, isAdd, isEq, scalarOrd]

def matKeys : List String := ["+", "-", "*", ".", "^", "==", "!=", "/=", "(", ")", "[", "]", "rank", "det", "inv", "kerbas", "rr", "rech", "rechr", "rrnz", "rechnz", "transpose"]

theorem matCls_none {s : String} (h : s ∉ matKeys) : matCls s = none := by
  simp only [matKeys, List.mem_cons, List.not_mem_nil, or_false, not_or] at h
  simp [matCls, h]

theorem mat_fits {M α : Type} (O : MOps M α) (scan : String → Res M) (scanI : String → Res Int) :
    Fits (matrix O scan scanI) matG where
  lit s := by
    show _ ↔ matCls s = none
    by_cases h : s ∈ matKeys
    · have : ∀ s ∈ matKeys, (s ∉ ["(", "[", ")", "]", "^"] ∧
          s ∉ (addTable ++ matG.pre ++ matG.mul ++ matG.ord ++ matG.eqs).map Prod.fst) ↔ matCls s = none := by decide +kernel
      exact this s h
    · rw [matCls_none h]
      simp only [matKeys, List.mem_cons, List.not_mem_nil, or_false, not_or] at h
      simp [Gram.IsLit, matG, addTable, h]
  lp s := by
    show _ ↔ matCls s = _
    by_cases h : s ∈ matKeys
    · revert s; decide +kernel
    · rw [matCls_none h]
      simp only [matKeys, List.mem_cons, List.not_mem_nil, or_false, not_or] at h
      simp [h]
  rp s := by
    show _ ↔ matCls s = _
    by_cases h : s ∈ matKeys
    · revert s; decide +kernel
    · rw [matCls_none h]
      simp only [matKeys, List.mem_cons, List.not_mem_nil, or_false, not_or] at h
      simp [h]
  exp s := by
    show _ ↔ matCls s = _
    by_cases h : s ∈ matKeys
    · revert s; decide +kernel
    · rw [matCls_none h]
      simp only [matKeys, List.mem_cons, List.not_mem_nil, or_false, not_or] at h
      simp [h]
  add s o := by
    show _ ↔ matCls s = _ ∧ isAdd o = true
    by_cases h : s ∈ matKeys
    · have : ∀ s ∈ matKeys, ∀ o, (s, o) ∈ addTable ↔ matCls s = some (.op o) ∧ isAdd o = true := by
        intro s hs o
        revert s
        cases o <;> decide +kernel
      exact this s h o
    · rw [matCls_none h]
      simp only [matKeys, List.mem_cons, List.not_mem_nil, or_false, not_or] at h
      simp [matG, addTable, h]
  pre s o := by
    show _ ↔ matCls s = _ ∧ matPre o = true
    by_cases h : s ∈ matKeys
    · have : ∀ s ∈ matKeys, ∀ o, (s, o) ∈ matG.pre ↔ matCls s = some (.op o) ∧ matPre o = true := by
        intro s hs o
        revert s
        cases o <;> decide +kernel
      exact this s h o
    · rw [matCls_none h]
      simp only [matKeys, List.mem_cons, List.not_mem_nil, or_false, not_or] at h
      simp [matG, addTable, h]
  mul s o := by
    show _ ↔ matCls s = _ ∧ isMul o = true
    by_cases h : s ∈ matKeys
    · have : ∀ s ∈ matKeys, ∀ o, (s, o) ∈ matG.mul ↔ matCls s = some (.op o) ∧ isMul o = true := by
        intro s hs o
        revert s
        cases o <;> decide +kernel
      exact this s h o
    · rw [matCls_none h]
      simp only [matKeys, List.mem_cons, List.not_mem_nil, or_false, not_or] at h
      simp [matG, addTable, h]
  ord s o := by
    show _ ↔ _ ∧ false = true
    simp [matG]
  eqs s o := by
    show _ ↔ matCls s = _ ∧ isEq o = true
    by_cases h : s ∈ matKeys
    · have : ∀ s ∈ matKeys, ∀ o, (s, o) ∈ matG.eqs ↔ matCls s = some (.op o) ∧ isEq o = true := by
        intro s hs o
        revert s
        cases o <;> decide +kernel
      exact this s h o
    · rw [matCls_none h]
      simp only [matKeys, List.mem_cons, List.not_mem_nil, or_false, not_or] at h
      simp [matG, addTable, h]
  dpre o h := by
    have h : matPre o = true := h
    cases o <;> simp_all [matPre, isAdd]
  dmul o h := by
    have h : isMul o = true := h
    cases o <;> simp_all [isMul]
  dadd o h := by
    show isMul o = false
    cases o <;> simp_all [isMul, isAdd]
  dord o h := by
    have h : false = true := h
    show _ ∧ isMul o = false ∧ _
    cases o <;> simp_all [isMul, isAdd, scalarOrd]
  deqs o h := by
    have h : isEq o = true := h
    show _ ∧ isMul o = false ∧ _ ∧ false = false
    cases o <;> simp_all [isMul, isAdd, isEq, scalarOrd]

/-! ### Unambiguity -/

/-- A dialect with the same spellings whose values are trees. -/
def free {A : Type} (D : Dialect A) : Dialect Tree where
  cls := D.cls
  scan s := ok (.lit s)
  scanI s := ok (.lit s)
  pre := D.pre
  mul := D.mul
  ord := D.ord
  eqs := D.eqs
  un o t := ok (.un o t)
  bin o t u := ok (.bin o t u)

theorem free_fits {A : Type} {D : Dialect A} {G : Gram} (H : Fits D G) : Fits (free D) G :=
  ⟨H.lit, H.lp, H.rp, H.exp, H.add, H.pre, H.mul, H.ord, H.eqs, H.dpre, H.dmul, H.dadd, H.dord, H.deqs⟩

theorem eval_free {A : Type} (D : Dialect A) (t : Tree) (m : Bool) : eval (free D) m t = ok t := by
  induction t generalizing m with
  | lit s => cases m <;> rfl
  | un o t ih => simp only [eval, ih, ok_bind]; rfl
  | bin o t u ih1 ih2 => simp only [eval, ih1, ih2, ok_bind]; rfl

theorem unambiguous {A : Type} {D : Dialect A} {G : Gram} (H : Fits D G) {t u : Tree} {ts : List String}
    (ht : Derives G .Q t ts) (hu : Derives G .Q u ts) : t = u := by
  have h1 := parse_derives (free_fits H) ht
  rw [parse_derives (free_fits H) hu, eval_free, eval_free] at h1
  simpa using h1.symm

/-- Trees without comparisons whose operators and literals the grammar has. -/
inductive Arith (G : Gram) : Tree → Prop
  | lit {s} : G.IsLit s → Arith G (.lit s)
  | neg {t} : Arith G t → Arith G (.un .uminus t)
  | pre {s o t} : (s, o) ∈ G.pre → Arith G t → Arith G (.un o t)
  | mul {s o t u} : (s, o) ∈ G.mul → Arith G t → Arith G u → Arith G (.bin o t u)
  | add {s o t u} : (s, o) ∈ addTable → Arith G t → Arith G u → Arith G (.bin o t u)
  | exp {t u} : Arith G t → Arith G u → Arith G (.bin .exp t u)

theorem printable {G : Gram} {t : Tree} (h : Arith G t) : ∃ ts, Derives G .P t ts := by
  have par : ∀ {t ts}, Derives G .E t ts → ∃ ts, Derives G .P t ts := fun h =>
    ⟨_, .paren (l := "(") (r := ")") (by simp) (by simp) h⟩
  induction h with
  | lit h => exact ⟨_, .lit h⟩
  | neg _ ih => obtain ⟨ts, h⟩ := ih; exact par (.ofT (.ofF (.neg (.ofP h))))
  | pre hs _ ih => obtain ⟨ts, h⟩ := ih; exact par (.ofT (.ofF (.pre hs (.ofP h))))
  | mul hs _ _ ih1 ih2 =>
    obtain ⟨_, h1⟩ := ih1; obtain ⟨_, h2⟩ := ih2
    exact par (.ofT (.mul hs (.ofF (.ofU (.ofP h1))) (.ofU (.ofP h2))))
  | add hs _ _ ih1 ih2 =>
    obtain ⟨_, h1⟩ := ih1; obtain ⟨_, h2⟩ := ih2
    exact par (.add hs (.ofT (.ofF (.ofU (.ofP h1)))) (.ofF (.ofU (.ofP h2))))
  | exp _ _ ih1 ih2 =>
    obtain ⟨_, h1⟩ := ih1; obtain ⟨_, h2⟩ := ih2
    exact par (.ofT (.ofF (.ofU (.pow (.ofP h1) h2))))

theorem derives_arith {G : Gram} {L : Lvl} {t : Tree} {ts : List String} (h : Derives G L t ts) (hC : L ≠ .C)
    (hQ : L ≠ .Q) : Arith G t := by
  induction h with
  | lit h => exact .lit h
  | paren _ _ _ ih => exact ih (by simp) (by simp)
  | ofP _ ih | ofU _ ih | ofF _ ih | ofT _ ih | pos _ ih => exact ih (by simp) (by simp)
  | pow _ _ ih1 ih2 => exact .exp (ih1 (by simp) (by simp)) (ih2 (by simp) (by simp))
  | neg _ ih => exact .neg (ih (by simp) (by simp))
  | pre hs _ ih => exact .pre hs (ih (by simp) (by simp))
  | mul hs _ _ ih1 ih2 => exact .mul hs (ih1 (by simp) (by simp)) (ih2 (by simp) (by simp))
  | add hs _ _ ih1 ih2 => exact .add hs (ih1 (by simp) (by simp)) (ih2 (by simp) (by simp))
  | ofE _ _ | ord _ _ _ _ _ => exact absurd rfl hC
  | ofC _ _ | eqs _ _ _ _ _ => exact absurd rfl hQ

/-- The literals of a tree; `true` marks those to the right of `^`. -/
def Tree.lits : Bool → Tree → List (Bool × String)
  | m, .lit s => [(m, s)]
  | m, .un _ t => t.lits m
  | m, .bin o t u => t.lits m ++ u.lits (m || o = .exp)

/-! ### Evaluation in a commutative ring with a partial division and remainder -/

section Ring
variable {α K : Type} [CommRing K] {U : Prop}

/-- Division and remainder, where they have a value. -/
structure Sem (K : Type) where
  dv : K → K → Option K
  md : K → K → Option K

/-- `r` is right for the partial value `d`. -/
def Right (U : Prop) {β V : Type} (r : Res β) (d : Option V) (P : β → V → Prop) : Prop :=
  match d with
  | some x => r.Sat U (fun b => P b x)
  | none => r.Throws U

/-- The operators of a type refine those of a ring.  `ord` is the order that its comparisons decide. -/
structure RRef (U : Prop) (O : EOps α) (rep : α → K → Prop) (S : Sem K) (ord : K → K → Prop) : Prop where
  neg : ∀ {a x}, rep a x → (O.neg a).Sat U (fun r => rep r (-x))
  add : ∀ {a b x y}, rep a x → rep b y → (O.add a b).Sat U (fun r => rep r (x + y))
  sub : ∀ {a b x y}, rep a x → rep b y → (O.sub a b).Sat U (fun r => rep r (x - y))
  mul : ∀ {a b x y}, rep a x → rep b y → (O.mul a b).Sat U (fun r => rep r (x * y))
  div : ∀ {a b x y}, rep a x → rep b y → Right U (O.div a b) (S.dv x y) rep
  mod : ∀ {a b x y}, rep a x → rep b y → Right U (O.mod a b) (S.md x y) rep
  eq : ∀ {a b x y}, rep a x → rep b y → (O.eq a b).Sat U (fun r => r = true ↔ x = y)
  ne : ∀ {a b x y}, rep a x → rep b y → (O.ne a b).Sat U (fun r => r = true ↔ x ≠ y)
  lt : ∀ {a b x y}, rep a x → rep b y → (O.lt a b).Sat U (fun r => r = true ↔ ord x y)
  le : ∀ {a b x y}, rep a x → rep b y → (O.le a b).Sat U (fun r => r = true ↔ ¬ ord y x)
  gt : ∀ {a b x y}, rep a x → rep b y → (O.gt a b).Sat U (fun r => r = true ↔ ord y x)
  ge : ∀ {a b x y}, rep a x → rep b y → (O.ge a b).Sat U (fun r => r = true ↔ ¬ ord x y)

open Classical in
/-- `x` to the power `n`: for a negative `n`, that of one divided by `x`.  Undefined for zero to a power that is not
positive. -/
noncomputable def powS (S : Sem K) (x : K) (n : Int) : Option K :=
  if x = 0 then if 0 < n then some 0 else none
  else if n < 0 then (S.dv 1 x).map (· ^ (-n).toNat) else some (x ^ n.toNat)

/-- The value of a tree in a ring, where it has one. -/
noncomputable def denS (S : Sem K) (lit : String → Option K) (litI : String → Option Int) : Tree → Option K
  | .lit s => lit s
  | .un .uminus t => do let x ← denS S lit litI t; some (-x)
  | .bin .plus t u => do let x ← denS S lit litI t; let y ← denS S lit litI u; some (x + y)
  | .bin .minus t u => do let x ← denS S lit litI t; let y ← denS S lit litI u; some (x - y)
  | .bin .mul t u => do let x ← denS S lit litI t; let y ← denS S lit litI u; some (x * y)
  | .bin .div t u => do let x ← denS S lit litI t; let y ← denS S lit litI u; S.dv x y
  | .bin .mod t u => do let x ← denS S lit litI t; let y ← denS S lit litI u; S.md x y
  | .bin .exp t (.lit s) => do let x ← denS S lit litI t; let n ← litI s; powS S x n
  | _ => none

theorem Right.bind {β γ V W : Type} {r : Res β} {d : Option V} {P : β → V → Prop} {f : β → Res γ} {g : V → Option W}
    {Q : γ → W → Prop} (h : Right U r d P) (hf : ∀ b x, P b x → Right U (f b) (g x) Q) :
    Right U (r >>= f) (d >>= g) Q := by
  cases d with
  | none => exact Throws.bind h
  | some x =>
    show Right U _ (g x) Q
    cases hg : g x with
    | none =>
      refine Sat.throws_bind (P := fun b => P b x) h fun b hb => ?_
      have := hf b x hb
      rw [hg] at this
      exact this
    | some y =>
      refine Sat.bind (P := fun b => P b x) h fun b hb => ?_
      have := hf b x hb
      rw [hg] at this
      exact this

theorem Right.sat_bind {β γ W : Type} {r : Res β} {P : β → Prop} {f : β → Res γ} {d : Option W} {Q : γ → W → Prop}
    (h : r.Sat U P) (hf : ∀ b, P b → Right U (f b) d Q) : Right U (r >>= f) d Q := by
  cases d with
  | none => exact Sat.throws_bind h hf
  | some x => exact Sat.bind h hf

theorem clo_exp_right {O : EOps α} {rep : α → K → Prop} {S : Sem K} {ord : K → K → Prop} (H : RRef U O rep S ord) {a zero one : α}
    {x : K} (ha : rep a x) (h0 : rep zero 0) (h1 : rep one 1) {e : Int} (he : InInt e) (he' : e = INT_MIN → U) :
    Right U (clo_exp O a e zero one) (powS S x e) rep := by
  unfold clo_exp powS
  by_cases hx : x = 0
  · subst hx
    by_cases hp : 0 < e
    · rw [if_pos rfl, if_pos hp]
      refine Sat.bind (H.eq ha h0) fun z hz => ?_
      have : z = true := hz.2 rfl
      subst this
      have : ¬ e ≤ 0 := by omega
      simp only [if_true, this, if_false]
      exact h0
    · rw [if_pos rfl, if_neg hp]
      refine Sat.throws_bind (H.eq ha h0) fun z hz => ?_
      have : z = true := hz.2 rfl
      subst this
      have : e ≤ 0 := by omega
      simp only [if_true, this]
      exact .inl rfl
  · simp only [hx, if_false]
    refine Right.sat_bind (H.eq ha h0) fun z hz => ?_
    have : z = false := by
      cases z with
      | false => rfl
      | true => exact absurd (hz.1 rfl) hx
    subst this
    simp only [Bool.false_eq_true, if_false]
    unfold InInt at he
    split
    · rename_i h; subst h; simpa [Right] using h1
    · split
      · rename_i hne hneg
        by_cases hmin : e = -2147483648
        · have hn : ineg e = ub := by
            unfold ineg chk
            rw [if_neg]
            unfold InInt
            omega
          rw [hn]
          cases S.dv 1 x with
          | none => exact .inr ⟨he' hmin, rfl⟩
          | some y => exact he' hmin
        have hn : ineg e = ok (-e) := by
          unfold ineg chk
          rw [if_pos]
          unfold InInt
          omega
        rw [hn]
        simp only [ok_bind]
        rw [if_neg (by omega)]
        have hdv := H.div h1 ha
        cases hv : S.dv 1 x with
        | none => rw [hv] at hdv; exact Throws.bind hdv
        | some y =>
          rw [hv] at hdv
          refine Sat.bind (P := fun c => rep c y) hdv fun xp hxp => ?_
          refine (sqMulLoop_sat (fun h h' => H.mul h h') 32 one xp y 1 (-e).toNat (by omega) h1 hxp).mono fun r hr => ?_
          rwa [one_mul] at hr
      · rename_i hneg
        refine (sqMulLoop_sat (fun h h' => H.mul h h') 32 one a x 1 e.toNat (by omega) h1 ha).mono fun r hr => ?_
        rwa [one_mul] at hr

/-- The literals of a tree are read as `lit` and `litI` say. -/
structure Reads (U : Prop) (rep : α → K → Prop) (scan : String → Res α) (scanI : String → Res Int)
    (lit : String → Option K) (litI : String → Option Int) (t : Tree) : Prop where
  val : ∀ s, (false, s) ∈ t.lits false → Right U (scan s) (lit s) rep
  int : ∀ s, (true, s) ∈ t.lits false → Right False (scanI s) (litI s) (fun n k => n = k ∧ InInt n ∧ (n = INT_MIN → U))

theorem lits_true (t : Tree) : ∀ x ∈ t.lits true, x.1 = true := by
  induction t with
  | lit s => intro x hx; simp [Tree.lits] at hx; rw [hx]
  | un o t ih => exact ih
  | bin o t u ih1 ih2 =>
    intro x hx
    simp only [Tree.lits, Bool.true_or, List.mem_append] at hx
    exact hx.elim (ih1 x) (ih2 x)

variable {O : EOps α} {zero one : α} {scan : String → Res α} {scanI : String → Res Int}

/-- To the right of `^`, only a literal has a value. -/
theorem eval_int {P : String → Prop} (hI : ∀ s, P s → scanI s = throw ∨ ∃ n, scanI s = ok n) (t : Tree)
    (ht : ∀ s, (true, s) ∈ t.lits true → P s) :
    (∃ s, t = .lit s) ∨ eval (scalar O zero one scan scanI) true t = throw := by
  have key : ∀ t : Tree, (∀ s, (true, s) ∈ t.lits true → P s) → eval (scalar O zero one scan scanI) true t = throw ∨
      ∃ n, eval (scalar O zero one scan scanI) true t = ok (.int n) := by
    intro t
    induction t with
    | lit s =>
      intro h
      rcases hI s (h s (by simp [Tree.lits])) with h | ⟨n, h⟩
      · left; simp [eval, scalar, h]
      · right; exact ⟨n, by simp [eval, scalar, h]⟩
    | un o t ih =>
      intro h
      left
      rcases ih h with h | ⟨n, h⟩
      · simp [eval, h]
      · simp only [eval, h, ok_bind]
        cases o <;> rfl
    | bin o t u ih1 ih2 =>
      intro h
      left
      simp only [Tree.lits, Bool.true_or, List.mem_append] at h
      rcases ih1 (fun s hs => h s (.inl hs)) with h1 | ⟨n, h1⟩
      · simp [eval, h1]
      · rcases ih2 (fun s hs => h s (.inr hs)) with h2 | ⟨k, h2⟩
        · simp [eval, h1, h2]
        · simp only [eval, h1, h2, ok_bind, Bool.true_or]
          cases o <;> rfl
  cases t with
  | lit s => exact .inl ⟨s, rfl⟩
  | un o t =>
    right
    rcases key t ht with h | ⟨n, h⟩
    · simp [eval, h]
    · simp only [eval, h, ok_bind]
      cases o <;> rfl
  | bin o t u =>
    right
    simp only [Tree.lits, Bool.true_or, List.mem_append] at ht
    rcases key t (fun s hs => ht s (.inl hs)) with h1 | ⟨n, h1⟩
    · simp [eval, h1]
    · rcases key u (fun s hs => ht s (.inr hs)) with h2 | ⟨k, h2⟩
      · simp [eval, h1, h2]
      · simp only [eval, h1, h2, ok_bind, Bool.true_or]
        cases o <;> rfl

/-- An atom that holds the value `x`. -/
def RepA (rep : α → K → Prop) (v : Atom α) (x : K) : Prop := ∃ a, v = .val a ∧ rep a x

theorem eval_right {rep : α → K → Prop} {S : Sem K} {ord : K → K → Prop} (H : RRef U O rep S ord) (h0 : rep zero 0) (h1 : rep one 1)
    {lit : String → Option K} {litI : String → Option Int} {t : Tree} (ht : Arith scalarG t)
    (R : Reads U rep scan scanI lit litI t) :
    Right U (eval (scalar O zero one scan scanI) false t) (denS S lit litI t) (RepA rep) := by
  have bin : ∀ {o : Op} {t u : Tree} {f : α → α → Res α} {g : K → K → Option K}, o ≠ .exp →
      (∀ a b, scalarBin O zero one o (.val a) (.val b) = (f a b >>= fun c => ok (.val c))) →
      (∀ a b x y, rep a x → rep b y → Right U (f a b) (g x y) rep) →
      Right U (eval (scalar O zero one scan scanI) false t) (denS S lit litI t) (RepA rep) →
      Right U (eval (scalar O zero one scan scanI) false u) (denS S lit litI u) (RepA rep) →
      Right U (eval (scalar O zero one scan scanI) false (.bin o t u))
        (denS S lit litI t >>= fun x => denS S lit litI u >>= fun y => g x y) (RepA rep) := by
    intro o t u f g ho hb hfg h1 h2
    simp only [eval, Bool.false_or]
    refine h1.bind fun v x hv => ?_
    obtain ⟨a, rfl, ha⟩ := hv
    rw [show decide (o = Op.exp) = false by simpa using ho]
    refine h2.bind fun w y hw => ?_
    obtain ⟨b, rfl, hb'⟩ := hw
    have hfg' := hfg a b x y ha hb'
    show Right U (scalarBin O zero one o (.val a) (.val b)) _ _
    rw [hb]
    cases hg : g x y with
    | none => rw [hg] at hfg'; exact Throws.bind hfg'
    | some z =>
      rw [hg] at hfg'
      exact Sat.bind (P := fun c => rep c z) hfg' fun c hc => ⟨c, rfl, hc⟩
  have split : ∀ {o : Op} {t u : Tree}, o ≠ .exp → Reads U rep scan scanI lit litI (.bin o t u) →
      Reads U rep scan scanI lit litI t ∧ Reads U rep scan scanI lit litI u := by
    intro o t u ho R
    have e : (Tree.bin o t u).lits false = t.lits false ++ u.lits false := by simp [Tree.lits, ho]
    exact ⟨⟨fun s h => R.val s (by rw [e]; simp [h]), fun s h => R.int s (by rw [e]; simp [h])⟩,
      ⟨fun s h => R.val s (by rw [e]; simp [h]), fun s h => R.int s (by rw [e]; simp [h])⟩⟩
  induction ht with
  | @lit s hs =>
    have := R.val s (by simp [Tree.lits])
    show Right U (scan s >>= fun a => ok (Atom.val a)) (lit s) _
    cases hl : lit s with
    | none => rw [hl] at this; exact Throws.bind this
    | some x =>
      rw [hl] at this
      exact Sat.bind (P := fun c => rep c x) this fun c hc => ⟨c, rfl, hc⟩
  | @neg t _ ih =>
    have := ih ⟨R.val, R.int⟩
    show Right U (eval (scalar O zero one scan scanI) false t >>= fun v => scalarUn O .uminus v)
      (denS S lit litI t >>= fun x => some (-x)) _
    refine this.bind fun v x hv => ?_
    obtain ⟨a, rfl, ha⟩ := hv
    exact Sat.bind (H.neg ha) fun c hc => ⟨c, rfl, hc⟩
  | pre hs => simp [scalarG] at hs
  | @mul s o t u hs _ _ ih1 ih2 =>
    simp only [scalarG, List.mem_cons, Prod.mk.injEq, List.not_mem_nil, or_false] at hs
    have ho : o = .mul ∨ o = .div ∨ o = .mod := by
      rcases hs with ⟨_, h⟩ | ⟨_, h⟩ | ⟨_, h⟩ | ⟨_, h⟩ <;> simp [h]
    rcases ho with rfl | rfl | rfl
    · obtain ⟨R1, R2⟩ := split (by simp) R
      exact bin (f := O.mul) (g := fun x y => some (x * y)) (by simp) (fun _ _ => rfl)
        (fun a b x y ha hb => H.mul ha hb) (ih1 R1) (ih2 R2)
    · obtain ⟨R1, R2⟩ := split (by simp) R
      exact bin (f := O.div) (g := S.dv) (by simp) (fun _ _ => rfl) (fun a b x y ha hb => H.div ha hb) (ih1 R1) (ih2 R2)
    · obtain ⟨R1, R2⟩ := split (by simp) R
      exact bin (f := O.mod) (g := S.md) (by simp) (fun _ _ => rfl) (fun a b x y ha hb => H.mod ha hb) (ih1 R1) (ih2 R2)
  | @add s o t u hs _ _ ih1 ih2 =>
    simp only [addTable, List.mem_cons, Prod.mk.injEq, List.not_mem_nil, or_false] at hs
    rcases hs with ⟨_, rfl⟩ | ⟨_, rfl⟩
    · obtain ⟨R1, R2⟩ := split (by simp) R
      exact bin (f := O.add) (g := fun x y => some (x + y)) (by simp) (fun _ _ => rfl)
        (fun a b x y ha hb => H.add ha hb) (ih1 R1) (ih2 R2)
    · obtain ⟨R1, R2⟩ := split (by simp) R
      exact bin (f := O.sub) (g := fun x y => some (x - y)) (by simp) (fun _ _ => rfl)
        (fun a b x y ha hb => H.sub ha hb) (ih1 R1) (ih2 R2)
  | @exp t u _ _ ih1 _ =>
    have e : (Tree.bin Op.exp t u).lits false = t.lits false ++ u.lits true := by simp [Tree.lits]
    have R1 : Reads U rep scan scanI lit litI t :=
      ⟨fun s h => R.val s (by rw [e]; simp [h]), fun s h => R.int s (by rw [e]; simp [h])⟩
    have ev : eval (scalar O zero one scan scanI) false (.bin .exp t u) =
        (eval (scalar O zero one scan scanI) false t >>= fun v => eval (scalar O zero one scan scanI) true u >>= fun w =>
          scalarBin O zero one .exp v w) := by simp [eval, scalar]
    rw [ev]
    have hI : ∀ s, (true, s) ∈ (Tree.bin Op.exp t u).lits false → scanI s = throw ∨ ∃ n, scanI s = ok n := by
      intro s hs
      have := R.int s hs
      cases hl : litI s with
      | none => rw [hl] at this; exact .inl (throws_false.1 this)
      | some k =>
        rw [hl] at this
        obtain ⟨n, hn, _⟩ := sat_false.1 this
        exact .inr ⟨n, hn⟩
    rcases eval_int (O := O) (zero := zero) (one := one) (scan := scan) hI u
      (fun s hs => by rw [e]; simp [hs]) with ⟨s, rfl⟩ | hu
    · show Right U _ (denS S lit litI t >>= fun x => litI s >>= fun n => powS S x n) _
      refine (ih1 R1).bind fun v x hv => ?_
      obtain ⟨a, rfl, ha⟩ := hv
      have hs := R.int s (by rw [e]; simp [Tree.lits])
      have es : eval (scalar O zero one scan scanI) true (.lit s) = (scanI s >>= fun n => ok (.int n)) := rfl
      rw [es]
      cases hl : litI s with
      | none =>
        rw [hl] at hs
        rw [throws_false.1 hs]
        exact .inl rfl
      | some k =>
        rw [hl] at hs
        obtain ⟨n, hn, rfl, hin, hmin⟩ := sat_false.1 hs
        rw [hn]
        show Right U (clo_exp O a n zero one >>= fun c => ok (Atom.val c)) (powS S x n) _
        have := clo_exp_right H ha h0 h1 hin hmin
        cases hp : powS S x n with
        | none => rw [hp] at this; exact Throws.bind this
        | some z =>
          rw [hp] at this
          exact Sat.bind (P := fun c => rep c z) this fun c hc => ⟨c, rfl, hc⟩
    · have hd : denS S lit litI (.bin .exp t u) = none ∨ ∃ s, u = .lit s := by
        cases u with
        | lit s => exact .inr ⟨s, rfl⟩
        | un o u => exact .inl (by simp [denS])
        | bin o u w => exact .inl (by simp [denS])
      rw [hu]
      have thr : ((eval (scalar O zero one scan scanI) false t >>= fun v => (Res.throw : Res (Atom α)) >>= fun w =>
          scalarBin O zero one .exp v w)).Throws U := by
        have := ih1 R1
        cases hd1 : denS S lit litI t with
        | none => rw [hd1] at this; exact Throws.bind this
        | some x => rw [hd1] at this; exact Sat.throws_bind this fun _ _ => .inl rfl
      rcases hd with hd | ⟨s, rfl⟩
      · rw [hd]; exact thr
      · have hs := R.int s (by rw [e]; simp [Tree.lits])
        have : litI s = none := by
          cases hl : litI s with
          | none => rfl
          | some k =>
            rw [hl] at hs
            obtain ⟨n, hn, _⟩ := sat_false.1 hs
            have es : eval (scalar O zero one scan scanI) true (.lit s) = (scanI s >>= fun n => ok (.int n)) := rfl
            rw [es, hn] at hu
            simp at hu
        have : denS S lit litI (.bin .exp t (.lit s)) = none := by
          show (denS S lit litI t >>= fun x => litI s >>= fun n => powS S x n) = none
          rw [this]
          cases denS S lit litI t <;> rfl
        rw [this]
        exact thr

end Ring

/-! ### Evaluation in a field -/

section Field
variable {α K : Type} [Field K] {U : Prop}

/-- The operators of a type refine those of a field.  `ord` is the order that its comparisons decide. -/
structure FRef (U : Prop) (O : EOps α) (rep : α → K → Prop) (ord : K → K → Prop) : Prop where
  neg : ∀ {a x}, rep a x → (O.neg a).Sat U (fun r => rep r (-x))
  add : ∀ {a b x y}, rep a x → rep b y → (O.add a b).Sat U (fun r => rep r (x + y))
  sub : ∀ {a b x y}, rep a x → rep b y → (O.sub a b).Sat U (fun r => rep r (x - y))
  mul : ∀ {a b x y}, rep a x → rep b y → (O.mul a b).Sat U (fun r => rep r (x * y))
  div : ∀ {a b x y}, rep a x → rep b y → y ≠ 0 → (O.div a b).Sat U (fun r => rep r (x / y))
  div0 : ∀ {a b x}, rep a x → rep b 0 → (O.div a b).Throws U
  mod : ∀ {a b x y}, rep a x → rep b y → y ≠ 0 → (O.mod a b).Sat U (fun r => rep r 0)
  mod0 : ∀ {a b x}, rep a x → rep b 0 → (O.mod a b).Throws U
  eq : ∀ {a b x y}, rep a x → rep b y → (O.eq a b).Sat U (fun r => r = true ↔ x = y)
  ne : ∀ {a b x y}, rep a x → rep b y → (O.ne a b).Sat U (fun r => r = true ↔ x ≠ y)
  lt : ∀ {a b x y}, rep a x → rep b y → (O.lt a b).Sat U (fun r => r = true ↔ ord x y)
  le : ∀ {a b x y}, rep a x → rep b y → (O.le a b).Sat U (fun r => r = true ↔ ¬ ord y x)
  gt : ∀ {a b x y}, rep a x → rep b y → (O.gt a b).Sat U (fun r => r = true ↔ ord y x)
  ge : ∀ {a b x y}, rep a x → rep b y → (O.ge a b).Sat U (fun r => r = true ↔ ¬ ord x y)

open Classical in
/-- `x` to the power `n`; undefined for zero to a power that is not positive. -/
noncomputable def powQ (x : K) (n : Int) : Option K :=
  if x = 0 then if 0 < n then some 0 else none else some (x ^ n)

open Classical in
/-- The value of a tree in a field, where it has one. -/
noncomputable def den (lit : String → Option K) (litI : String → Option Int) : Tree → Option K
  | .lit s => lit s
  | .un .uminus t => do let x ← den lit litI t; some (-x)
  | .bin .plus t u => do let x ← den lit litI t; let y ← den lit litI u; some (x + y)
  | .bin .minus t u => do let x ← den lit litI t; let y ← den lit litI u; some (x - y)
  | .bin .mul t u => do let x ← den lit litI t; let y ← den lit litI u; some (x * y)
  | .bin .div t u => do let x ← den lit litI t; let y ← den lit litI u; if y = 0 then none else some (x / y)
  | .bin .mod t u => do let _ ← den lit litI t; let y ← den lit litI u; if y = 0 then none else some 0
  | .bin .exp t (.lit s) => do let x ← den lit litI t; let n ← litI s; powQ x n
  | _ => none

open Classical in
/-- Division in a field; the remainder is zero. -/
noncomputable def fieldSem (K : Type) [Field K] : Sem K where
  dv x y := if y = 0 then none else some (x / y)
  md _ y := if y = 0 then none else some 0

theorem FRef.toRRef {O : EOps α} {rep : α → K → Prop} {ord : K → K → Prop} (H : FRef U O rep ord) :
    RRef U O rep (fieldSem K) ord where
  neg := H.neg
  add := H.add
  sub := H.sub
  mul := H.mul
  div {a b x y} ha hb := by
    by_cases hy : y = 0
    · subst hy; simp only [fieldSem, if_true]; exact H.div0 ha hb
    · simp only [fieldSem, hy, if_false]; exact H.div ha hb hy
  mod {a b x y} ha hb := by
    by_cases hy : y = 0
    · subst hy; simp only [fieldSem, if_true]; exact H.mod0 ha hb
    · simp only [fieldSem, hy, if_false]; exact H.mod ha hb hy
  eq := H.eq
  ne := H.ne
  lt := H.lt
  le := H.le
  gt := H.gt
  ge := H.ge

theorem powS_field (x : K) (n : Int) : powS (fieldSem K) x n = powQ x n := by
  unfold powS powQ
  by_cases hx : x = 0
  · simp [hx]
  · simp only [hx, if_false, fieldSem, Option.map_some]
    split
    · rename_i h
      rw [one_div, inv_pow, ← zpow_natCast, Int.toNat_of_nonneg (by omega), zpow_neg, inv_inv]
    · rename_i h
      rw [← zpow_natCast, Int.toNat_of_nonneg (by omega)]

theorem denS_field (lit : String → Option K) (litI : String → Option Int) (t : Tree) :
    denS (fieldSem K) lit litI t = den lit litI t := by
  induction t with
  | lit s => rfl
  | un o t ih => cases o <;> simp [denS, den, ih]
  | bin o t u ih1 ih2 =>
    cases o with
    | exp =>
      cases u with
      | lit s => simp only [denS, den, ih1, powS_field]
      | un _ _ => simp [denS, den]
      | bin _ _ _ => simp [denS, den]
    | _ => simp only [denS, den, ih1, ih2]; try rfl

end Field

end Spffl.Expr
