import Verif.Proof.ExprInst
import Verif.Props.Scan

/-!
# C90: the command-line expression evaluators
-/

namespace Spffl.Props
namespace Expr90
open Res Spffl.Expr

variable {α M : Type}

/-! ### Parsing, for every element type -/

/-- C90: the evaluator of scalars prints, for every expression of the grammar, the value of its tree. -/
theorem C90_scalar (O : EOps α) (zero one : α) (scan : String → Res α) (scanI : String → Res Int) {t : Tree}
    {ts : List String} (h : Derives scalarG .Q t ts) :
    parse (scalar O zero one scan scanI) ts = (eval (scalar O zero one scan scanI) false t >>= fun v => ok [v]) :=
  parse_derives (scalar_fits O zero one scan scanI) h

/-- C90: the same for vectors. -/
theorem C90_vector (O : VOps M) (scan : String → Res M) (scanI : String → Res Int) {t : Tree} {ts : List String}
    (h : Derives vecG .Q t ts) :
    parse (vector (α := α) O scan scanI) ts = (eval (vector O scan scanI) false t >>= fun v => ok [v]) :=
  parse_derives (vec_fits O scan scanI) h

/-- C90: the same for matrices. -/
theorem C90_matrix (O : MOps M α) (scan : String → Res M) (scanI : String → Res Int) {t : Tree} {ts : List String}
    (h : Derives matG .Q t ts) :
    parse (matrix O scan scanI) ts = (eval (matrix O scan scanI) false t >>= fun v => ok [v]) :=
  parse_derives (mat_fits O scan scanI) h

theorem isLit_of_readInt {s : String} {n : Int} (h : Scan.readInt s.toList = ok n) : scalarG.IsLit s := by
  by_cases hk : s ∈ scalarKeys
  · have : ∀ s ∈ scalarKeys, Scan.readInt s.toList = .throw := by decide +kernel
    rw [this s hk] at h
    cases h
  · simp only [scalarKeys, List.mem_cons, List.not_mem_nil, or_false, not_or] at hk
    simp [Gram.IsLit, scalarG, addTable, hk]

theorem isLit {s : String} (h : ((Scan.readInt s.toList) matches ok _) = true) : scalarG.IsLit s := by
  cases h' : Scan.readInt s.toList with
  | ok n => exact isLit_of_readInt h'
  | _ => rw [h'] at h; cases h

/-- `1 - 2 - 3 * 4 ^ 5 ^ 6`: everything associates to the left, and `^` binds tightest. -/
def sample : List String := ["1", "-", "2", "-", "3", "*", "4", "^", "5", "^", "6"]

theorem sample_derives : Derives scalarG .Q
    (.bin .minus (.bin .minus (.lit "1") (.lit "2"))
      (.bin .mul (.lit "3") (.bin .exp (.bin .exp (.lit "4") (.lit "5")) (.lit "6")))) sample := by
  have l : ∀ s, scalarG.IsLit s → Derives scalarG .U (.lit s) [s] := fun s h => .ofP (.lit h)
  have e1 : Derives scalarG .U _ (["4"] ++ "^" :: ["5"]) := .pow (l "4" (isLit (by decide +kernel))) (.lit (isLit (by decide +kernel)))
  have e2 : Derives scalarG .U _ ((["4"] ++ "^" :: ["5"]) ++ "^" :: ["6"]) := .pow e1 (.lit (isLit (by decide +kernel)))
  have m : Derives scalarG .T (.bin .mul _ _) (["3"] ++ "*" :: _) :=
    .mul (by simp [scalarG]) (.ofF (.ofU (l "3" (isLit (by decide +kernel))))) (.ofU e2)
  have a1 : Derives scalarG .E (.bin .minus _ _) (["1"] ++ "-" :: ["2"]) :=
    .add (by simp [addTable]) (.ofT (.ofF (.ofU (l "1" (isLit (by decide +kernel)))))) (.ofF (.ofU (l "2" (isLit (by decide +kernel)))))
  exact .ofC (.ofE (.add (s := "-") (by simp [addTable]) a1 m))

example : zOp sample = ok [.val (1 - 2 - 3 * (4 ^ 5) ^ 6)] ∨ zOp sample = ub := by right; decide +kernel
example : zOp ["1", "-", "2", "-", "3", "*", "2", "^", "3", "^", "2"] = ok [.val (-193)] := by decide +kernel
example : zOp ["-", "2", "^", "2"] = ok [.val (-4)] ∧ zOp ["-", "-", "2"] = .throw := by decide +kernel

theorem ops_any {A : Type} (D : Dialect A) : OpsSafe True True D (fun _ => True) (fun _ => True) := by
  have h : ∀ r : Res A, Safe True True r fun _ => True := fun r => by cases r <;> trivial
  exact ⟨fun _ _ => h _, fun _ _ => h _, fun _ _ _ => h _, fun _ _ _ _ _ => h _⟩

/-- C90: whatever is printed is the value of the argument list, read as one expression of the grammar; nothing is
printed for the empty list.  This needs nothing of the operations. -/
theorem C90_only {A : Type} {D : Dialect A} {G : Gram} (H : Fits D G) {ts : List String} {out : List A}
    (h : parse D ts = ok out) :
    (ts = [] ∧ out = []) ∨ ∃ t v, Derives G .Q t ts ∧ eval D false t = ok v ∧ out = [v] := by
  have := parse_sound H (ops_any D) ts fun _ _ => trivial
  rw [h] at this
  exact this

/-- The three evaluators are instances. -/
example (O : EOps α) (zero one : α) (scan : String → Res α) (scanI : String → Res Int) :
    Fits (scalar O zero one scan scanI) scalarG := scalar_fits O zero one scan scanI
example (O : VOps M) (scan : String → Res M) (scanI : String → Res Int) :
    Fits (vector (α := α) O scan scanI) vecG := vec_fits O scan scanI
example (O : MOps M α) (scan : String → Res M) (scanI : String → Res Int) :
    Fits (matrix O scan scanI) matG := mat_fits O scan scanI

/-- C90: if the operations always return or throw, so does the evaluator, on any list of arguments; a list that is
neither empty nor an expression throws. -/
theorem C90_total {A : Type} {D : Dialect A} {G : Gram} (H : Fits D G) (S : OpsSafe False False D (fun _ => True) (fun _ => True))
    (ts : List String) : (∃ out, parse D ts = ok out) ∨ parse D ts = .throw := by
  have := parse_sound H S ts fun _ _ => trivial
  cases h : parse D ts with
  | ok out => exact .inl ⟨out, rfl⟩
  | throw => exact .inr rfl
  | ub => rw [h] at this; exact this.elim
  | timeout => rw [h] at this; exact this.elim

theorem C90_reject {A : Type} {D : Dialect A} {G : Gram} (H : Fits D G) (S : OpsSafe False False D (fun _ => True) (fun _ => True))
    {ts : List String} (h0 : ts ≠ []) (h : ¬ ∃ t, Derives G .Q t ts) : parse D ts = .throw := by
  rcases C90_total H S ts with ⟨out, ho⟩ | ht
  · rcases C90_only H ho with ⟨e, _⟩ | ⟨t, _, hd, _⟩
    · exact absurd e h0
    · exact absurd ⟨t, hd⟩ h
  · exact ht

/-- The hypothesis is met, for instance by the evaluator that builds the tree. -/
example (O : EOps α) (zero one : α) (scan : String → Res α) (scanI : String → Res Int) :
    OpsSafe False False (free (scalar O zero one scan scanI)) (fun _ => True) (fun _ => True) :=
  ⟨fun _ _ => trivial, fun _ _ => trivial, fun _ _ _ => trivial, fun _ _ _ _ _ => trivial⟩

/-- C90: an argument list is an expression in at most one way. -/
theorem C90_unambiguous {t u : Tree} {ts : List String} :
    (Derives scalarG .Q t ts → Derives scalarG .Q u ts → t = u) ∧ (Derives vecG .Q t ts → Derives vecG .Q u ts → t = u) ∧
    (Derives matG .Q t ts → Derives matG .Q u ts → t = u) := by
  refine ⟨unambiguous (scalar_fits (α := Unit) ?_ () () (fun _ => ub) (fun _ => ub)),
    unambiguous (vec_fits (M := Unit) (α := Unit) ?_ (fun _ => ub) (fun _ => ub)),
    unambiguous (mat_fits (M := Unit) (α := Unit) ?_ (fun _ => ub) (fun _ => ub))⟩
  · exact ⟨fun _ => ub, fun _ _ => ub, fun _ _ => ub, fun _ _ => ub, fun _ _ => ub, fun _ _ => ub, fun _ _ => ub,
      fun _ _ => ub, fun _ _ => ub, fun _ _ => ub, fun _ _ => ub, fun _ _ => ub⟩
  · exact ⟨fun _ => ub, fun _ _ => ub, fun _ _ => ub, fun _ _ => ub, fun _ _ => ub, fun _ _ => ub, fun _ _ => ub⟩
  · exact ⟨⟨fun _ => ub, fun _ _ => ub, fun _ _ => ub, fun _ _ => ub, fun _ _ => ub, fun _ _ => ub, fun _ _ => ub⟩,
      fun _ _ => ub, fun _ => ub, fun _ _ => ub, fun _ => ub, fun _ _ => ub, fun _ => ub, fun _ => ub, fun _ => ub,
      fun _ => ub, fun _ => ub, fun _ => ub, fun _ => ub, fun _ => ub, fun _ => ub⟩

/-- C90: every tree of arithmetic operations can be written. -/
theorem C90_printable {G : Gram} {t : Tree} (h : Arith G t) : ∃ ts, Derives G .Q t ts := by
  obtain ⟨ts, h⟩ := printable h
  exact ⟨ts, .ofC (.ofE (.ofT (.ofF (.ofU (.ofP h)))))⟩

example : Arith scalarG (.bin .mul (.lit "2") (.bin .plus (.lit "3") (.un .uminus (.lit "4")))) :=
  .mul (s := "*") (by simp [scalarG]) (.lit (isLit (by decide +kernel)))
    (.add (s := "+") (by simp [addTable]) (.lit (isLit (by decide +kernel))) (.neg (.lit (isLit (by decide +kernel)))))

/-! ### Residues modulo a prime -/

/-- The literal, as an integer. -/
def intLit (s : String) : Option Int :=
  match Scan.readInt s.toList with
  | ok n => some n
  | _ => none

theorem intLit_right (s : String) : Right False (Scan.readInt s.toList) (intLit s) (fun n k => n = k ∧ InInt n) := by
  unfold intLit
  cases h : Scan.readInt s.toList with
  | ok n => exact ⟨rfl, ((Scan.readInt_ok_iff _ n).1 h).1⟩
  | throw => exact .inl rfl
  | ub => unfold Scan.readInt at h; simp only at h; split at h <;> cases h
  | timeout => unfold Scan.readInt at h; simp only at h; split at h <;> cases h

/-- The literal, as an element of the field with `p` elements. -/
def fpLit (p : ℕ) (s : String) : Option (ZMod p) := (intLit s).map fun n => (n : ZMod p)

theorem fp_reads {p : ℕ} (hp : 2 ≤ p) (hm : p ≤ 46341) (s : String) (h : ∀ n, intLit s = some n → 0 ≤ n) :
    Right False (Scan.readMod p s.toList) (fpLit p s) (IntMod.Rep p) := by
  have hr := intLit_right s
  rw [Scan.readMod_eq (by omega)]
  unfold fpLit
  cases hl : intLit s with
  | none => rw [hl] at hr; exact Throws.bind hr
  | some n =>
    rw [hl] at hr
    have hn := h n hl
    refine Sat.bind (P := fun k => k = n ∧ InInt k) hr fun k hk => ?_
    obtain ⟨rfl, hk⟩ := hk
    rw [Sat_ok, Int.tmod_eq_emod_of_nonneg hn]
    refine ⟨rfl, Int.emod_nonneg _ (by omega), Int.emod_lt_of_pos _ (by omega), ?_⟩
    simp

/-- What is printed for a value: the canonical residue, or 1 or 0. -/
def FpOut (p : ℕ) : ZMod p ⊕ Bool → Atom IntMod
  | .inl x => .val ⟨x.val, p⟩
  | .inr b => .int (if b then 1 else 0)

theorem rep_val {p : ℕ} (hp : 0 < p) {a : IntMod} {x : ZMod p} (h : IntMod.Rep p a x) : a = ⟨x.val, p⟩ := by
  haveI : NeZero p := ⟨by omega⟩
  have : IntMod.Rep p ⟨x.val, p⟩ x := ⟨rfl, Int.natCast_nonneg _, Int.ofNat_lt.2 (ZMod.val_lt x), by simp⟩
  exact h.inj this

theorem fp_zero_one {p : ℕ} (hp : 2 ≤ p) (hm : p ≤ 46341) : IntMod.mk' 0 p = ok ⟨0, p⟩ ∧ IntMod.mk' 1 p = ok ⟨1, p⟩ ∧
    IntMod.Rep p ⟨0, p⟩ 0 ∧ IntMod.Rep p ⟨1, p⟩ 1 := by
  have hin : InInt p := by unfold InInt; omega
  refine ⟨?_, ?_, ⟨rfl, by simp, by simp; omega, by simp⟩, ⟨rfl, by simp, by simp; omega, by simp⟩⟩
  · rw [IntMod.C12_construct 0 p (by unfold InInt; simp) hin, if_neg (by omega)]; simp
  · rw [IntMod.C12_construct 1 p (by unfold InInt; simp) hin, if_neg (by omega), Int.emod_eq_of_lt (by simp) (by omega)]

theorem fpOp_eq {p : ℕ} (hp : 2 ≤ p) (hm : p ≤ 46341) (ts : List String) : fpOp p ts =
    parse (scalar intmodOps ⟨0, p⟩ ⟨1, p⟩ (fun s => Scan.readMod p s.toList) (fun s => Scan.readInt s.toList)) ts := by
  obtain ⟨h1, h2, _⟩ := fp_zero_one hp hm
  unfold fpOp
  rw [h1, h2]
  rfl

/-- C90: the calculator for residues modulo a prime up to 46341 prints, for every expression whose literals are not
negative, its value in the field with `p` elements, and throws where that has none.  An exponent is a single literal,
of either sign.  Missing for the full property: negative literals elsewhere (`C90_violated_fp_negative`) and the
exponent `INT_MIN` (`C90_violated_int_min`). -/
theorem C90_fp_partial {p : ℕ} [hp : Fact p.Prime] (hm : p ≤ 46341) {t : Tree} {ts : List String}
    (hd : Derives scalarG .Q t ts) (hv : ∀ s n, (false, s) ∈ t.lits false → intLit s = some n → 0 ≤ n)
    (hi : ∀ s, (true, s) ∈ t.lits false → intLit s ≠ some INT_MIN) :
    fpOp p ts = match denQ (fpLit p) intLit (fun x y => x.val < y.val) t with
      | some x => ok [FpOut p x]
      | none => .throw := by
  have h2 := hp.out.two_le
  obtain ⟨_, _, r0, r1⟩ := fp_zero_one h2 hm
  rw [fpOp_eq h2 hm]
  have R : Reads False (IntMod.Rep p) (fun s => Scan.readMod p s.toList) (fun s => Scan.readInt s.toList) (fpLit p) intLit t := by
    refine ⟨fun s hs => fp_reads h2 hm s (fun n => hv s n hs), fun s hs => ?_⟩
    have h := intLit_right s
    have hne := hi s hs
    cases hl : intLit s with
    | none => rw [hl] at h; exact h
    | some k =>
      rw [hl] at h hne
      refine Sat.mono h fun n hn => ⟨hn.1, hn.2, fun e => hne ?_⟩
      rw [← hn.1, e]
  have := parse_right (intmod_fref hm) r0 r1 hd R
  cases hq : denQ (fpLit p) intLit (fun x y => x.val < y.val) t with
  | none => rw [hq] at this; exact throws_false.1 this
  | some x =>
    rw [hq] at this
    obtain ⟨out, ho, v, rfl, hvx⟩ := sat_false.1 this
    rw [ho]
    cases x with
    | inl x =>
      obtain ⟨a, rfl, ha⟩ := hvx
      simp [FpOut, rep_val (by omega) ha]
    | inr b =>
      have hvx : v = .int (if b then 1 else 0) := hvx
      simp [FpOut, hvx]

example : fpOp 7 ["3", "/", "(", "2", "+", "3", ")", "^", "-2", "-", "6"] = ok [.val ⟨6, 7⟩] := by decide +kernel
example : fpOp 7 ["3", "/", "(", "2", "+", "5", ")"] = .throw ∧ fpOp 7 ["3", "<", "10"] = ok [.int 0] := by decide +kernel

/-- C90: on any list of arguments whose literals are not negative, the calculator either prints one value or throws;
it throws unless the list is empty or an expression. -/
theorem C90_fp_total {p : ℕ} [hp : Fact p.Prime] (hm : p ≤ 46341) (ts : List String)
    (hv : ∀ s ∈ ts, ∀ n, intLit s = some n → 0 ≤ n) :
    (ts = [] ∧ fpOp p ts = ok []) ∨ (∃ t, Derives scalarG .Q t ts) ∨ fpOp p ts = .throw := by
  have h2 := hp.out.two_le
  obtain ⟨_, _, r0, r1⟩ := fp_zero_one h2 hm
  rw [fpOp_eq h2 hm]
  have S := scalar_safe (scan := fun s => Scan.readMod p s.toList) (scanI := fun s => Scan.readInt s.toList) (intmod_fref hm) r0 r1
    (Lt := fun s => ∀ n, intLit s = some n → 0 ≤ n) (fun s hs => (fp_reads h2 hm s hs).safe) (fun s hs => by
      have h := intLit_right s
      cases hl : intLit s with
      | none =>
        rw [hl] at h
        show Safe False False (Scan.readInt s.toList) _
        rw [throws_false.1 h]
        trivial
      | some k =>
        rw [hl] at h
        obtain ⟨n, hn, rfl, hin⟩ := sat_false.1 h
        show Safe False False (Scan.readInt s.toList) _
        rw [hn]
        refine ⟨hin, fun e => ?_⟩
        have := hs n hl
        rw [e] at this
        exact absurd this (by decide))
  have := parse_sound (scalar_fits _ _ _ _ _) S ts hv
  cases h : parse (scalar intmodOps ⟨0, p⟩ ⟨1, p⟩ (fun s => Scan.readMod p s.toList) (fun s => Scan.readInt s.toList)) ts with
  | ok out =>
    rw [h] at this
    rcases this with ⟨rfl, rfl⟩ | ⟨t, v, hd, _⟩
    · exact .inl ⟨rfl, rfl⟩
    · exact .inr (.inl ⟨t, hd⟩)
  | throw => exact .inr (.inr rfl)
  | ub => rw [h] at this; exact this.elim
  | timeout => rw [h] at this; exact this.elim

example : fpOp 7 ["3", "+"] = .throw ∧ fpOp 7 ["3", "4"] = .throw ∧ fpOp 7 [")"] = .throw := by decide +kernel

/-- C90, violated: for every prime and every negative integer that it does not divide, the calculator denies that the
integer is equal to its own canonical residue. -/
theorem C90_violated_fp_negative {p : ℕ} [hp : Fact p.Prime] (hm : p ≤ 46341) {s s' : String} {n : Int}
    (hs : Scan.readInt s.toList = ok n) (hs' : Scan.readInt s'.toList = ok (n % p)) (hneg : n < 0) (hd : ¬ (p : Int) ∣ n) :
    fpOp p [s, "==", s'] = ok [.int 0] := by
  have h2 := hp.out.two_le
  rw [fpOp_eq h2 hm, C90_scalar _ _ _ _ _ (t := .bin .eq (.lit s) (.lit s')) (ts := [s, "==", s']) (.eqs (a := [s]) (b := [s']) (s := "==") (by simp [scalarG])
    (.ofC (.ofE (.ofT (.ofF (.ofU (.ofP (.lit (isLit_of_readInt hs))))))))
    (.ofE (.ofT (.ofF (.ofU (.ofP (.lit (isLit_of_readInt hs'))))))))]
  have e1 : Scan.readMod p s.toList = ok ⟨n.tmod p, p⟩ := by rw [Scan.readMod_eq (by omega), hs]; rfl
  have h0 : 0 ≤ n % p := Int.emod_nonneg _ (by omega)
  have e2 : Scan.readMod p s'.toList = ok ⟨n % p, p⟩ := by
    rw [Scan.readMod_eq (by omega), hs']
    simp only [ok_bind]
    rw [Int.tmod_eq_emod_of_nonneg h0, Int.emod_emod_of_dvd _ (dvd_refl _)]
  have hneg' : n.tmod p < 0 := by
    have hne : n.tmod p ≠ 0 := fun h => hd (Int.dvd_of_tmod_eq_zero h)
    have := Int.tmod_nonneg (a := -n) p (by omega)
    rw [Int.neg_tmod] at this; omega
  have ev : eval (scalar intmodOps ⟨0, p⟩ ⟨1, p⟩ (fun s => Scan.readMod p s.toList) (fun s => Scan.readInt s.toList)) false
      (.bin .eq (.lit s) (.lit s')) = (do
        let a ← Scan.readMod p s.toList
        let b ← Scan.readMod p s'.toList
        let c ← IntMod.eq a b
        ok (ofBool c)) := by
    simp only [eval, scalar, bind_assoc, ok_bind, Bool.false_eq_true, if_false, Bool.false_or,
      show decide (Op.eq = Op.exp) = false from rfl]
    rfl
  rw [ev, e1, e2]
  simp only [ok_bind]
  have : IntMod.eq ⟨n.tmod p, p⟩ ⟨n % p, p⟩ = ok false := by
    unfold IntMod.eq IntMod.check_modulus
    rw [if_neg (by simp only; omega)]
    simp only [ok_bind]
    rw [if_pos (show n.tmod p ≠ n % p by omega)]
  rw [this]
  rfl

example : fpOp 7 ["-1", "==", "6"] = ok [.int 0] ∧ fpOp 7 ["0", "+", "-1", "==", "6"] = ok [.int 1] := by decide +kernel

/-- C90, violated: to the power `INT_MIN`, every non-zero residue is undefined behaviour: the test for that exponent
negates it first. -/
theorem C90_violated_int_min {p : ℕ} [hp : Fact p.Prime] (hm : p ≤ 46341) {s : String} {n : Int}
    (hs : Scan.readInt s.toList = ok n) (h0 : 0 ≤ n) (hd : ¬ (p : Int) ∣ n) :
    fpOp p [s, "^", "-2147483648"] = ub := by
  have h2 := hp.out.two_le
  have hI : Scan.readInt "-2147483648".toList = ok INT_MIN := by decide +kernel
  obtain ⟨_, _, r0, r1⟩ := fp_zero_one h2 hm
  rw [fpOp_eq h2 hm, C90_scalar _ _ _ _ _ (t := .bin .exp (.lit s) (.lit "-2147483648")) (ts := [s, "^", "-2147483648"]) (.ofC (.ofE (.ofT (.ofF (.ofU
    (.pow (a := [s]) (b := ["-2147483648"]) (.ofP (.lit (isLit_of_readInt hs))) (.lit (isLit_of_readInt hI))))))))]
  have e1 : Scan.readMod p s.toList = ok ⟨n % p, p⟩ := by
    rw [Scan.readMod_eq (by omega), hs]
    simp only [ok_bind]
    rw [Int.tmod_eq_emod_of_nonneg h0]
  have ev : eval (scalar intmodOps ⟨0, p⟩ ⟨1, p⟩ (fun s => Scan.readMod p s.toList) (fun s => Scan.readInt s.toList)) false
      (.bin .exp (.lit s) (.lit "-2147483648")) = (do
        let a ← Scan.readMod p s.toList
        let n ← Scan.readInt "-2147483648".toList
        let c ← clo_exp intmodOps a n ⟨0, p⟩ ⟨1, p⟩
        ok (.val c)) := by
    simp only [eval, scalar, bind_assoc, ok_bind, Bool.false_eq_true, if_false, decide_true, Bool.or_true, if_true]
    rfl
  rw [ev, e1, hI]
  simp only [ok_bind]
  have hne : IntMod.eq ⟨n % p, p⟩ ⟨0, p⟩ = ok false := by
    unfold IntMod.eq IntMod.check_modulus
    rw [if_neg (by simp only; omega)]
    simp only [ok_bind]
    rw [if_pos (fun h => hd (Int.dvd_of_emod_eq_zero h))]
  have : clo_exp intmodOps ⟨n % p, p⟩ INT_MIN ⟨0, p⟩ ⟨1, p⟩ = ub := by
    unfold clo_exp
    show (IntMod.eq ⟨n % p, p⟩ ⟨0, p⟩ >>= _) = ub
    rw [hne]
    rfl
  rw [this]
  rfl

example : fpOp 7 ["3", "^", "-2147483648"] = ub := by decide +kernel

/-! ### Rationals -/

/-- The literal, as a rational number: what `C91_rat` says of its text. -/
def qLit (s : String) : Option ℚ :=
  match Scan.readRat s.toList with
  | ok a => some (Rat17.value a)
  | _ => none

/-- C90: the calculator for rationals never prints a wrong value.  For every argument list, either nothing was given
and nothing is printed; or the list is an expression, and its value in the rational numbers is printed, in lowest
terms, or it throws because there is none, or an `int` overflows; or it is not an expression, and it throws or an `int`
overflows. -/
theorem C90_q_partial (ts : List String) :
    (ts = [] ∧ qOp ts = ok []) ∨
    (∃ t, Derives scalarG .Q t ts ∧
      match denQ qLit intLit (fun x y => x < y) t with
      | some (.inl x) => (∃ a, qOp ts = ok [.val a] ∧ Rat17.Wf a ∧ Rat17.value a = x) ∨ qOp ts = ub
      | some (.inr b) => qOp ts = ok [.int (if b then 1 else 0)] ∨ qOp ts = ub
      | none => qOp ts = .throw ∨ qOp ts = ub) ∨
    ((¬ ∃ t, Derives scalarG .Q t ts) ∧ (qOp ts = .throw ∨ qOp ts = ub)) := by
  have e0 : IntRat.ofInt 0 = ok ⟨0, 1⟩ := by decide
  have e1 : IntRat.ofInt 1 = ok ⟨1, 1⟩ := by decide
  have r0 : IntRat.Rep ⟨0, 1⟩ 0 := by
    obtain ⟨a, ha, hr⟩ := IntRat.ofInt_ok (n := 0) (by decide) (by decide)
    rw [e0] at ha; injection ha with ha; rw [ha]; simpa using hr
  have r1 : IntRat.Rep ⟨1, 1⟩ 1 := by
    obtain ⟨a, ha, hr⟩ := IntRat.ofInt_ok (n := 1) (by decide) (by decide)
    rw [e1] at ha; injection ha with ha; rw [ha]; simpa using hr
  have eq : qOp ts = parse (scalar intratOps ⟨0, 1⟩ ⟨1, 1⟩ (fun s => Scan.readRat s.toList) (fun s => Scan.readInt s.toList)) ts := by
    unfold qOp
    rw [e0, e1]
    rfl
  rw [eq]
  have val : ∀ {a : IntRat} {x : ℚ}, IntRat.Rep a x → Rat17.value a = x := fun h => (Rat17.rep_wf h).2
  have R : ∀ t, Reads True IntRat.Rep (fun s => Scan.readRat s.toList) (fun s => Scan.readInt s.toList) qLit intLit t := by
    intro t
    refine ⟨fun s _ => ?_, fun s _ => ?_⟩
    · have := readRat_safe s.toList
      unfold qLit
      cases h : Scan.readRat s.toList with
      | ok a =>
        rw [h] at this
        obtain ⟨x, hx⟩ := this
        show IntRat.Rep a (Rat17.value a)
        rw [val hx]
        exact hx
      | throw => exact .inl rfl
      | ub => exact .inr ⟨trivial, rfl⟩
      | timeout => rw [h] at this; exact this.elim
    · have h := intLit_right s
      cases hl : intLit s with
      | none => rw [hl] at h; exact h
      | some k => rw [hl] at h; exact Sat.mono h fun n hn => ⟨hn.1, hn.2, fun _ => trivial⟩
  by_cases hd : ∃ t, Derives scalarG .Q t ts
  · obtain ⟨t, hd⟩ := hd
    refine .inr (.inl ⟨t, hd, ?_⟩)
    have := parse_right intrat_fref r0 r1 hd (R t)
    revert this
    generalize parse _ ts = r
    intro this
    split
    · rename_i x hq
      rw [hq] at this
      cases r with
      | ok out =>
        obtain ⟨v, rfl, a, rfl, ha⟩ := this
        exact .inl ⟨a, rfl, Rat17.rep_wf ha⟩
      | throw => exact this.elim
      | ub => exact .inr rfl
      | timeout => exact this.elim
    · rename_i b hq
      rw [hq] at this
      cases r with
      | ok out =>
        obtain ⟨v, rfl, hv⟩ := this
        have hv : v = _ := hv
        rw [hv]
        exact .inl rfl
      | throw => exact this.elim
      | ub => exact .inr rfl
      | timeout => exact this.elim
    · rename_i hq
      rw [hq] at this
      rcases this with h | ⟨_, h⟩
      · exact .inl h
      · exact .inr h
  · by_cases h0 : ts = []
    · subst h0
      exact .inl ⟨rfl, rfl⟩
    · refine .inr (.inr ⟨hd, ?_⟩)
      have S := scalar_safe (U := True) (scan := fun s => Scan.readRat s.toList) (scanI := fun s => Scan.readInt s.toList) intrat_fref r0 r1
        (Lt := fun _ => True) (fun s _ => readRat_safe s.toList) (fun s _ => by
          have h := (intLit_right s).safe
          cases hl : Scan.readInt s.toList with
          | ok n =>
            rw [hl] at h
            obtain ⟨_, _, h⟩ := h
            exact ⟨h, fun _ => trivial⟩
          | throw => trivial
          | ub => trivial
          | timeout => rw [hl] at h; exact h)
      have := parse_sound (scalar_fits _ _ _ _ _) S ts fun _ _ => trivial
      revert this
      generalize parse _ ts = r
      intro this
      cases r with
      | ok out =>
        rcases this with ⟨e, _⟩ | ⟨t, _, h, _⟩
        · exact absurd e h0
        · exact absurd ⟨t, h⟩ hd
      | throw => exact .inl rfl
      | ub => exact .inr rfl
      | timeout => exact this.elim

example : qOp ["1/2", "+", "1/3", "*", "-", "3", "^", "-2"] = ok [.val ⟨25, 54⟩] ∧
    qOp ["1/2", "+", "1/3", "*", "3", "^", "-2"] = ok [.val ⟨29, 54⟩] ∧ qOp ["1/2", "<", "2/3"] = ok [.int 1] := by decide +kernel

/-! ### Integers -/

/-- C90, violated: the calculator for integers divides by zero. -/
theorem C90_violated_z_div_zero {s : String} {n : Int} (hs : Scan.readInt s.toList = ok n) :
    zOp [s, "/", "0"] = ub ∧ zOp [s, "%", "0"] = ub := by
  have hz : Scan.readInt "0".toList = ok 0 := by decide +kernel
  have d : ∀ o k, (k, o) ∈ scalarG.mul → Derives scalarG .Q (.bin o (.lit s) (.lit "0")) [s, k, "0"] := fun o k hk =>
    .ofC (.ofE (.ofT (.mul (a := [s]) (b := ["0"]) hk (.ofF (.ofU (.ofP (.lit (isLit_of_readInt hs)))))
      (.ofU (.ofP (.lit (isLit_of_readInt hz)))))))
  constructor
  · unfold zOp
    rw [C90_scalar _ _ _ _ _ (d .div "/" (by simp [scalarG]))]
    simp only [eval, scalar, Bool.false_eq_true, if_false, Bool.false_or, hs, ok_bind, hz]
    rfl
  · unfold zOp
    rw [C90_scalar _ _ _ _ _ (d .mod "%" (by simp [scalarG]))]
    simp only [eval, scalar, Bool.false_eq_true, if_false, Bool.false_or, hs, ok_bind, hz]
    rfl

example : zOp ["7", "/", "0"] = ub ∧ zOp ["7", "/", "2"] = ok [.val 3] := by decide +kernel

/-- C90, violated: an integer greater than one to the power minus one is printed as zero. -/
theorem C90_violated_z_negative_exponent {s : String} {n : Int} (hs : Scan.readInt s.toList = ok n) (h1 : 1 < n) :
    zOp [s, "^", "-1"] = ok [.val 0] := by
  have hz : Scan.readInt "-1".toList = ok (-1) := by decide +kernel
  unfold zOp
  rw [C90_scalar _ _ _ _ _ (t := .bin .exp (.lit s) (.lit "-1")) (ts := [s, "^", "-1"]) (.ofC (.ofE (.ofT (.ofF (.ofU
    (.pow (a := [s]) (b := ["-1"]) (.ofP (.lit (isLit_of_readInt hs))) (.lit (isLit_of_readInt hz))))))))]
  simp only [eval, scalar, Bool.false_eq_true, if_false, Bool.false_or, hs, ok_bind, hz, decide_true, if_true]
  have hdiv : idiv 1 n = ok 0 := by
    unfold idiv
    rw [if_neg (by omega), Int.tdiv_eq_zero_of_lt (by simp) h1]
    decide
  have : clo_exp Expr.intOps n (-1) 0 1 = ok 0 := by
    unfold clo_exp
    have hb : (n == 0) = false := by simp; omega
    show (ok (n == 0) >>= _) = _
    rw [hb]
    simp only [ok_bind, Bool.false_eq_true, if_false]
    have : ineg (-1) = ok 1 := by decide
    rw [if_neg (by decide), if_pos (by decide), this]
    simp only [ok_bind]
    rw [if_neg (by decide)]
    show (idiv 1 n >>= _) = _
    rw [hdiv]
    decide
  show ((clo_exp Expr.intOps n (-1) 0 1 >>= fun c => ok (Atom.val c)) >>= fun v => ok [v]) = _
  rw [this]
  rfl

example : zOp ["2", "^", "-1"] = ok [.val 0] := by decide +kernel

/-- C90: an exponent that is not a single literal throws, once the base has a value. -/
theorem C90_exponent (O : EOps α) (zero one : α) (scan : String → Res α) (scanI : String → Res Int) {t u : Tree} {ts : List String}
    (h : Derives scalarG .Q (.bin .exp t u) ts) (hu : ∀ s, u ≠ .lit s) {v : Atom α}
    (hv : eval (scalar O zero one scan scanI) false t = ok v)
    (hI : ∀ s, (true, s) ∈ u.lits true → scanI s = .throw ∨ ∃ n, scanI s = ok n) :
    parse (scalar O zero one scan scanI) ts = .throw := by
  rw [C90_scalar O zero one scan scanI h]
  rcases eval_int (O := O) (zero := zero) (one := one) (scan := scan) hI u (fun _ h => h) with ⟨s, rfl⟩ | h'
  · exact absurd rfl (hu s)
  · simp only [eval, hv, ok_bind, decide_true, Bool.false_or, h', throw_bind]

example : zOp ["2", "^", "(", "1", "+", "1", ")"] = .throw ∧ zOp ["2", "^", "(", "2", ")"] = ok [.val 4] := by decide +kernel

end Expr90
end Spffl.Props
