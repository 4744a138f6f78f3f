import Verif.Model.CmdCalc
import Verif.Proof.CmdPoly
import Verif.Proof.Expr

/-!
# Commands: the calculators
-/

namespace Spffl.Cmd
open Res Expr VText

variable {A α β : Type} {D : Dialect A} {G : Gram} {sh : A → Res (List Char)}

theorem lift_ok (a : α) : lift (ok a) = pure a := rfl

theorem lift_bind (r : Res α) (f : α → Res β) : lift (r >>= f) = lift r >>= fun a => lift (f a) := by
  cases r with
  | ok a => rw [ok_bind, lift_ok, pure_bind]
  | _ => rfl

theorem toList_ofList (ts : List String) : (ts.map String.toList).map String.ofList = ts := by
  induction ts with
  | nil => rfl
  | cons s r ih => rw [List.map_cons, List.map_cons, ih, String.ofList_toList]

theorem calcLoop_step {n : Nat} {c : Ctx A} {k : List A} (h : c.tok ≠ .eol) : calcLoop D sh (n + 1) (c, k) =
    (lift (pQ D (c.rest.length + 2) (c, k)) >>= fun s => lift (popResult s.2) >>= fun v => put sh v.1 >>= fun _ =>
      lift (matchEol D s.1) >>= fun c => calcLoop D sh n (c, v.2)) := by
  rw [calcLoop]
  split
  · exact absurd ‹_› h
  · rfl

/-- What may stand after an expression here: nothing, or a closing bracket and anything. -/
def Tail (k : List String) : Prop := k = [] ∨ ∃ r l, k = r :: l ∧ r ∈ [")", "]"]

/-- The command prints `t`, and returns if nothing follows the expression, but throws if something does. -/
def Ends (k : List String) (c : Cmd Unit) (t : List Char) : Prop := (k = [] → Prints c t ()) ∧ (k ≠ [] → ThrowsC c t)

theorem calc_derives (H : Fits D G) {t : Tree} {ts k : List String} (h : Derives G .Q t ts) (hk : Tail k) :
    calcCmd D sh ((ts ++ k).map String.toList) = (lift (eval D false t) >>= fun v => put sh v >>= fun _ =>
      if k = [] then pure () else lift .throw) := by
  have hg : Works D (fun n => pQ D (n + 1)) _ t ts :=
    spine_works (fun o ho => by
      have := H.deqs o ho
      simp [this]) (fun o ho => (H.deqs o ho).1) (derives_goal H h)
  have hs : Stop D (fun o => decide (o = .exp) || D.mul o || isAdd o || D.ord o || D.eqs o) k := by
    rcases hk with rfl | ⟨r, l, rfl, hr⟩
    · trivial
    · exact .inl ((H.rp r).1 hr)
  have h1 := hg (ts ++ k).length (by simp) k hs 0 []
  unfold calcCmd
  rw [toList_ofList, List.length_map]
  have e : (lift (lexan D 0 (ts ++ k)) >>= fun c => calcLoop D sh ((ts ++ k).length + 2) (c, [])) =
      (lift (lexan D 0 (ts ++ k) >>= fun c => pQ D ((ts ++ k).length + 1) (c, [])) >>= fun s => lift (popResult s.2) >>= fun v =>
        put sh v.1 >>= fun _ => lift (matchEol D s.1) >>= fun c => calcLoop D sh ((ts ++ k).length + 1) (c, v.2)) := by
    rw [lift_bind, bind_assoc]
    cases ts with
    | nil => exact absurd rfl (derives_ne_nil h)
    | cons s r =>
      cases hs : D.cls s with
      | some y => rw [List.cons_append, lexan_some hs, lift_ok, pure_bind, pure_bind]; rfl
      | none =>
        rw [List.cons_append, lexan_none hs, lift_bind, bind_assoc, bind_assoc]
        simp only [lift_ok, pure_bind]
        rfl
  rw [e, h1, lift_bind, bind_assoc]
  refine congrArg _ (funext fun v => ?_)
  rcases hk with rfl | ⟨r, l, rfl, hr⟩
  · simp only [lexan, ok_bind, lift_ok, pure_bind, popResult, matchEol, calcLoop, if_true]
  · rw [lexan_some ((H.rp r).1 hr)]
    simp only [ok_bind, lift_ok, pure_bind, popResult, matchEol, if_neg (List.cons_ne_nil r l)]
    refine congrArg _ (funext fun _ => ?_)
    rfl

/-- The command `c` does what the function `op` returns, with `e` at the end of the line. -/
structure Follows (e : List Char) (k : List String) (op : Res (List (List Char))) (c : Cmd Unit) : Prop where
  ok : ∀ {w}, op = ok [w] → Ends k c (w ++ e)
  throw : op = .throw → ThrowsC c []
  ub : op = .ub → IsUb c

theorem Follows.lift_bind {M : Type} {e : List Char} {k : List String} {r : Res M} {op : M → Res (List (List Char))} {c : M → Cmd Unit}
    (h : ∀ z, r = .ok z → Follows e k (op z) (c z)) : Follows e k (r >>= op) (lift r >>= c) := by
  cases r with
  | ok z => rw [ok_bind, lift_ok, pure_bind]; exact h z rfl
  | throw => exact ⟨fun h => (nomatch h), fun _ => rfl, fun h => (nomatch h)⟩
  | ub => exact ⟨fun h => (nomatch h), fun h => (nomatch h), fun _ => rfl⟩
  | timeout => exact ⟨fun h => (nomatch h), fun h => (nomatch h), fun h => (nomatch h)⟩

/-- The general form. -/
theorem calc_follows (H : Fits D G) {t : Tree} {ts k : List String} (h : Derives G .Q t ts) (hk : Tail k) {sh0 : A → Res (List Char)}
    {e : List Char} (hsh : ∀ v, sh v = (sh0 v >>= fun w => ok (w ++ e))) :
    Follows e k (parse D ts >>= each sh0) (calcCmd D sh ((ts ++ k).map String.toList)) := by
  rw [calc_derives H h hk, parse_derives H h, bind_assoc]
  refine Follows.lift_bind fun v _ => ?_
  rw [ok_bind]
  have e1 : each sh0 [v] = (sh0 v >>= fun w => ok [w]) := by
    unfold each each
    simp only [ok_bind]
  rw [e1]
  unfold put
  rw [hsh]
  cases sh0 v with
  | ok w =>
    simp only [ok_bind, lift_ok, pure_bind]
    refine ⟨fun h => ?_, fun h => (nomatch h), fun h => (nomatch h)⟩
    simp only [ok.injEq, List.cons.injEq, and_true] at h
    subst h
    refine ⟨fun h => ?_, fun h => ?_⟩
    · rw [if_pos h]; simpa using (prints_out (w ++ e)).bind (prints_pure ())
    · rw [if_neg h]; simpa using (prints_out (w ++ e)).bind_throws (f := fun _ => lift .throw) (throws_lift (α := Unit) rfl)
  | throw => exact ⟨fun h => (nomatch h), fun _ => rfl, fun h => (nomatch h)⟩
  | ub => exact ⟨fun h => (nomatch h), fun h => (nomatch h), fun _ => rfl⟩
  | timeout => exact ⟨fun h => (nomatch h), fun h => (nomatch h), fun h => (nomatch h)⟩

theorem line_eq (sh : A → Res (List Char)) (v : A) : line sh v = (sh v >>= fun w => ok (w ++ ['\n'])) := rfl

theorem scalar_follows {O : EOps α} {E : EltIO α} (z : α × α) {t : Tree} {ts k : List String} (h : Derives scalarG .Q t ts) (hk : Tail k) :
    Follows ['\n'] k (calcOp O E z.1 z.2 ts) (scalarCmd O E z ((ts ++ k).map String.toList)) :=
  calc_follows (scalar_fits O z.1 z.2 _ _) h hk (line_eq _)

theorem mat_follows {O : TOps α} {E : EltIO α} {files : String → Option (List Char)} (z : α × α) {t : Tree} {ts k : List String}
    (h : Derives matG .Q t ts) (hk : Tail k) :
    Follows [] k (matOp O E files z.1 z.2 ts) (matCmd O E files z ((ts ++ k).map String.toList)) :=
  calc_follows (mat_fits _ _ _) h hk fun v => by
    cases h : showMAtom E v <;> simp

theorem vec_follows {O : TOps α} {ex : α → Int → Res α} {E : EltIO α} (z : α) {t : Tree} {ts k : List String}
    (h : Derives vecG .Q t ts) (hk : Tail k) :
    Follows [] k (vecOp O ex E z ts) (vecCmd O ex E z ((ts ++ k).map String.toList)) :=
  calc_follows (vec_fits _ _ _) h hk fun v => by
    cases h : showVAtom E v <;> simp

theorem pair_eq {γ : Type} (x y : Res α) (f : α → α → Res γ) : (pair x y >>= fun z => f z.1 z.2) = (x >>= fun a => y >>= fun b => f a b) := by
  unfold pair
  simp only [bind_assoc, ok_bind]

/-! ### Whatever is printed -/

/-- What is done with any arguments: a command that returns has printed the value of all of them; one that throws has printed nothing, or
the value of the first few of them.  The program is not left. -/
theorem calc_sound (H : Fits D G) (args : List (List Char)) :
    (∀ t, Prints (calcCmd D sh args) t () → (args = [] ∧ t = []) ∨
      ∃ tr v, Derives G .Q tr (args.map String.ofList) ∧ eval D false tr = ok v ∧ sh v = ok t) ∧
    (∀ t, ThrowsC (calcCmd D sh args) t → t = [] ∨
      ∃ a k tr v, args.map String.ofList = a ++ k ∧ k ≠ [] ∧ Derives G .Q tr a ∧ eval D false tr = ok v ∧ sh v = ok t) ∧
    (∀ t, ¬ Exits (calcCmd D sh args) t) := by
  have key : ∃ r : Res (List Char × Ended Unit), (calcCmd D sh args).run = r ∧ match r with
      | .ok (t, .val _) => (args = [] ∧ t = []) ∨ ∃ tr v, Derives G .Q tr (args.map String.ofList) ∧ eval D false tr = ok v ∧ sh v = ok t
      | .ok (t, .thrown) => t = [] ∨
          ∃ a k tr v, args.map String.ofList = a ++ k ∧ k ≠ [] ∧ Derives G .Q tr a ∧ eval D false tr = ok v ∧ sh v = ok t
      | .ok (_, .exit1) => False
      | _ => True := by
    refine ⟨_, rfl, ?_⟩
    unfold calcCmd
    cases hc : lexan D 0 (args.map String.ofList) with
    | throw => exact .inl rfl
    | ub => trivial
    | timeout => trivial
    | ok c =>
      rw [lift_ok, pure_bind]
      cases args with
      | nil =>
        simp only [List.map_nil, lexan, ok.injEq] at hc
        rw [← hc]
        exact .inl ⟨rfl, rfl⟩
      | cons s r =>
        have hne : c.tok ≠ .eol := fun ht => absurd ((Pos.of_lexan hc).eol ht) (by simp)
        have hr : c.rest.length + 2 = (s :: r).length + 1 := by
          have : c.rest = r.map String.ofList := by
            cases hs : D.cls (String.ofList s) with
            | some y => rw [List.map_cons, lexan_some hs] at hc; injection hc with hc; rw [← hc]
            | none =>
              rw [List.map_cons, lexan_none hs] at hc
              cases hv : scanLit D 0 (String.ofList s) with
              | ok a => rw [hv, ok_bind] at hc; injection hc with hc; rw [← hc]
              | throw => rw [hv] at hc; cases hc
              | ub => rw [hv] at hc; cases hc
              | timeout => rw [hv] at hc; cases hc
          rw [this]; simp
        rw [calcLoop_step hne, hr]
        have hq := pQ_sound H (U := True) (T := True) (Lt := fun _ => True) (I := fun _ : A => True)
          (by
            have h : ∀ r : Res A, Safe True True r fun _ => True := fun r => by cases r <;> trivial
            exact ⟨fun _ _ => h _, fun _ _ => h _, fun _ _ _ => h _, fun _ _ _ _ _ => h _⟩) (s :: r).length
          ((s :: r).map String.ofList) (by simp) (fun _ _ => trivial) 0 c [] hc
        cases hp : pQ D ((s :: r).length + 1) (c, []) with
        | throw => exact .inl rfl
        | ub => trivial
        | timeout => trivial
        | ok s1 =>
          rw [hp] at hq
          obtain ⟨tr, a, k, v, h1, h2, h3, h4, h5⟩ := hq
          simp only [lift_ok, pure_bind, h4, popResult]
          unfold put
          cases hw : sh v with
          | throw => exact .inl rfl
          | ub => trivial
          | timeout => trivial
          | ok w =>
            simp only [lift_ok, pure_bind]
            have h3 : eval D false tr = ok v := h3
            unfold matchEol
            cases ht : s1.1.tok with
            | eol =>
              have hk := h5.eol ht
              subst hk
              rw [List.append_nil] at h1
              obtain ⟨h6, pw, h7⟩ := h5
              have hrest : s1.1.rest = [] := by
                simp only [lexan, ok.injEq, Ctx.mk.injEq] at h7
                exact h7.1.symm
              simp only [hrest, lexan, lift_ok, pure_bind, List.length_cons, calcLoop, bind_pure_comp]
              right
              rw [h1]
              exact ⟨tr, v, h2, h3, by simpa using hw⟩
            | num b =>
              right
              refine ⟨a, k, tr, v, h1, ?_, h2, h3, by simpa using hw⟩
              rintro rfl
              obtain ⟨h6, pw, h7⟩ := h5
              simp only [lexan, ok.injEq, Ctx.mk.injEq] at h7
              rw [← h7.2.1] at ht; cases ht
            | sym b =>
              right
              refine ⟨a, k, tr, v, h1, ?_, h2, h3, by simpa using hw⟩
              rintro rfl
              obtain ⟨h6, pw, h7⟩ := h5
              simp only [lexan, ok.injEq, Ctx.mk.injEq] at h7
              rw [← h7.2.1] at ht; cases ht
  obtain ⟨r, hr, h⟩ := key
  refine ⟨fun t ht => ?_, fun t ht => ?_, fun t ht => ?_⟩
  · rw [hr.symm.trans ht] at h; exact h
  · rw [hr.symm.trans ht] at h; exact h
  · rw [hr.symm.trans ht] at h; exact h

end Spffl.Cmd
