import Verif.Model.Cmd
import Verif.Proof.Scan

/-!
# Commands: rules for printed text, `sscanf`, and loops over arguments
-/

namespace Spffl.Cmd
open Res Scan

variable {α β : Type}

/-- The command prints `t` and goes on with `a`. -/
def Prints (c : Cmd α) (t : List Char) (a : α) : Prop := c.run = ok (t, .val a)

/-- The command prints `t` and leaves the program with status 1. -/
def Exits (c : Cmd α) (t : List Char) : Prop := c.run = ok (t, .exit1)

/-- The command prints `t` and throws an exception. -/
def ThrowsC (c : Cmd α) (t : List Char) : Prop := c.run = ok (t, .thrown)

/-- The command runs into undefined behaviour. -/
def IsUb (c : Cmd α) : Prop := c.run = .ub

theorem bind_run (x : Cmd α) (f : α → Cmd β) : (x >>= f).run = Res.bind x.run fun r => match r with
    | (t, .val a) => Res.bind (f a).run fun s => ok (t ++ s.1, s.2)
    | (t, .exit1) => ok (t, .exit1)
    | (t, .thrown) => ok (t, .thrown) := rfl

theorem pure_run (a : α) : (pure a : Cmd α).run = ok ([], .val a) := rfl

theorem Prints.bind {x : Cmd α} {f : α → Cmd β} {t s : List Char} {a : α} {b : β} (h : Prints x t a)
    (h' : Prints (f a) s b) : Prints (x >>= f) (t ++ s) b := by
  unfold Prints at *
  simp only [bind_run, h, h', Res.bind]

theorem Prints.bind_exits {x : Cmd α} {f : α → Cmd β} {t s : List Char} {a : α} (h : Prints x t a)
    (h' : Exits (f a) s) : Exits (x >>= f) (t ++ s) := by
  unfold Prints Exits at *
  simp only [bind_run, h, h', Res.bind]

theorem Prints.bind_throws {x : Cmd α} {f : α → Cmd β} {t s : List Char} {a : α} (h : Prints x t a)
    (h' : ThrowsC (f a) s) : ThrowsC (x >>= f) (t ++ s) := by
  unfold Prints ThrowsC at *
  simp only [bind_run, h, h', Res.bind]

theorem Prints.bind_ub {x : Cmd α} {f : α → Cmd β} {t : List Char} {a : α} (h : Prints x t a)
    (h' : IsUb (f a)) : IsUb (x >>= f) := by
  unfold Prints IsUb at *
  simp only [bind_run, h, h', Res.bind]

theorem Exits.bind {x : Cmd α} {f : α → Cmd β} {t : List Char} (h : Exits x t) : Exits (x >>= f) t := by
  unfold Exits at *
  simp only [bind_run, h, Res.bind]

theorem ThrowsC.bind {x : Cmd α} {f : α → Cmd β} {t : List Char} (h : ThrowsC x t) : ThrowsC (x >>= f) t := by
  unfold ThrowsC at *
  simp only [bind_run, h, Res.bind]

theorem IsUb.bind {x : Cmd α} {f : α → Cmd β} (h : IsUb x) : IsUb (x >>= f) := by
  unfold IsUb at *
  simp only [bind_run, h, Res.bind]

/-- A step that prints nothing. -/
theorem Prints.then {x : Cmd α} {f : α → Cmd β} {s : List Char} {a : α} {b : β} (h : Prints x [] a)
    (h' : Prints (f a) s b) : Prints (x >>= f) s b := by simpa using h.bind h'

theorem prints_pure (a : α) : Prints (pure a : Cmd α) [] a := rfl

theorem prints_out (t : List Char) : Prints (out t) t () := rfl

theorem prints_lift {r : Res α} {a : α} (h : r = ok a) : Prints (lift r) [] a := by subst h; rfl

theorem throws_lift {r : Res α} (h : r = .throw) : ThrowsC (lift r) [] := by subst h; rfl

theorem exits_exit1 : Exits (exit1 : Cmd α) [] := rfl

theorem prints_label (several : Bool) (a sep : List Char) :
    Prints (label several a sep) (if several then a ++ sep else []) () := by
  cases several <;> rfl

theorem forM_cons' (body : List Char → Cmd Unit) (a : List Char) (r : List (List Char)) :
    (a :: r).forM body = (body a >>= fun _ => r.forM body) := rfl

/-- One line per argument. -/
theorem forM_prints {σ : Type} {R : List Char → σ → Prop} {body : List Char → Cmd Unit} {txt : σ → List Char}
    {args : List (List Char)} {ns : List σ} (h : List.Forall₂ R args ns)
    (hb : ∀ a n, n ∈ ns → R a n → Prints (body a) (txt n) ()) : Prints (args.forM body) (ns.flatMap txt) () := by
  induction h with
  | nil => exact prints_pure ()
  | cons h _ ih =>
    rw [List.flatMap_cons, forM_cons']
    exact (hb _ _ (by simp) h).bind (ih fun a n hn => hb a n (by simp [hn]))

instance : LawfulMonad Cmd := LawfulMonad.mk' _
  (id_map := by
    intro α x
    show x >>= (fun a => pure (id a)) = x
    obtain ⟨r⟩ := x
    show Cmd.mk _ = Cmd.mk _
    congr 1
    cases r with
    | ok y => obtain ⟨t, e⟩ := y; cases e <;> simp [Res.bind, pure_run]
    | _ => rfl)
  (pure_bind := by
    intro α β a f
    cases h : f a with
    | mk r =>
      show Cmd.mk _ = _
      congr 1
      simp only [pure_run, Res.bind, h]
      cases r <;> simp)
  (bind_assoc := by
    intro α β γ x f g
    obtain ⟨r⟩ := x
    show Cmd.mk _ = Cmd.mk _
    congr 1
    simp only [bind_run]
    cases r with
    | ok y =>
      obtain ⟨t, e⟩ := y
      cases e with
      | val a =>
        simp only [Res.bind]
        cases (f a).run with
        | ok y =>
          obtain ⟨s, e⟩ := y
          cases e with
          | val b =>
            simp only [Res.bind]
            cases (g b).run <;> simp
          | exit1 => simp
          | thrown => simp
        | _ => simp
      | _ => simp [Res.bind]
    | _ => simp [Res.bind])
  (bind_pure_comp := by intros; rfl)
  (map_const := by intros; rfl)

theorem forM_append' {body : List Char → Cmd Unit} (pre post : List (List Char)) :
    ((pre ++ post).forM body) = (pre.forM body >>= fun _ => post.forM body) := by
  induction pre with
  | nil => exact (pure_bind () fun _ => post.forM body).symm
  | cons a r ih => rw [List.cons_append, forM_cons', forM_cons', ih, bind_assoc]

theorem forM_exits {σ : Type} {R : List Char → σ → Prop} {body : List Char → Cmd Unit} {txt : σ → List Char}
    {pre post : List (List Char)} {bad t : List Char} {ns : List σ} (h : List.Forall₂ R pre ns)
    (hb : ∀ a n, n ∈ ns → R a n → Prints (body a) (txt n) ()) (hbad : Exits (body bad) t) :
    Exits ((pre ++ bad :: post).forM body) (ns.flatMap txt ++ t) := by
  rw [forM_append']
  refine (forM_prints h hb).bind_exits ?_
  rw [forM_cons']
  exact hbad.bind

theorem forM_throws {σ : Type} {R : List Char → σ → Prop} {body : List Char → Cmd Unit} {txt : σ → List Char}
    {pre post : List (List Char)} {bad t : List Char} {ns : List σ} (h : List.Forall₂ R pre ns)
    (hb : ∀ a n, n ∈ ns → R a n → Prints (body a) (txt n) ()) (hbad : ThrowsC (body bad) t) :
    ThrowsC ((pre ++ bad :: post).forM body) (ns.flatMap txt ++ t) := by
  rw [forM_append']
  refine (forM_prints h hb).bind_throws ?_
  rw [forM_cons']
  exact hbad.bind

/-! ### `sscanf` -/

theorem scanD_text {cs tail : List Char} {n : Int} (h : IntText cs n tail) :
    scanD cs = if InInt n then ok (some (n, tail)) else .ub := by
  obtain ⟨ws, ds, hws, hne, hd, ht, h⟩ := h
  have hlen : tail.length < (ds ++ tail).length := by
    have := List.length_pos_iff.2 hne
    simp; omega
  have hI : ∀ v : Int, (v < INT_MIN ∨ INT_MAX < v) ↔ ¬ InInt v := by
    intro v; unfold InInt INT_MIN INT_MAX; omega
  have fin : ∀ (neg : Bool) (v : Int), v = (if neg = true then -(decVal ds : Int) else (decVal ds : Int)) →
      takeSign (cs.dropWhile isSpace) = (neg, ds ++ tail) →
      scanD cs = if InInt v then ok (some (v, tail)) else .ub := by
    intro neg v hv hs
    unfold scanD
    simp only [hs, takeDigits_eq ds tail hd ht, hlen, if_true, ← hv]
    by_cases hi : InInt v
    · rw [if_neg (by rw [hI]; exact fun h => h hi), if_pos hi]
    · rw [if_pos ((hI v).2 hi), if_neg hi]
  rcases h with ⟨rfl, rfl⟩ | ⟨rfl, rfl⟩ | ⟨rfl, rfl⟩
  · refine fin false _ (by simp) ?_
    obtain ⟨c, r, rfl⟩ := List.exists_cons_of_ne_nil hne
    rw [List.append_assoc, List.cons_append, dropWhile_space hws (by simpa using dig_not_space (hd c (by simp))), ← List.cons_append]
    exact takeSign_dig hd hne
  · refine fin false _ (by simp) ?_
    rw [List.append_assoc, List.cons_append, dropWhile_space hws (by simp; decide)]
    simp [takeSign]
  · refine fin true _ (by simp) ?_
    rw [List.append_assoc, List.cons_append, dropWhile_space hws (by simp; decide)]
    simp [takeSign]

theorem scanD_none {cs : List Char} (h : ∀ n tail, ¬ IntText cs n tail) : scanD cs = ok none := by
  unfold scanD
  obtain ⟨ds, tail, he, hd, ht⟩ := span_dig (takeSign (cs.dropWhile isSpace)).2
  simp only []
  rw [he, takeDigits_eq ds tail hd ht]
  rw [if_neg]
  intro hl
  have hne : ds ≠ [] := by rintro rfl; simp at hl
  have hcs : cs = cs.takeWhile isSpace ++ cs.dropWhile isSpace := (List.takeWhile_append_dropWhile).symm
  have hw : ∀ c ∈ cs.takeWhile isSpace, isSpace c = true := fun c hc => takeWhile_all _ _ _ hc
  cases hx : cs.dropWhile isSpace with
  | nil => rw [hx] at he; simp [takeSign] at he; exact hne he.1
  | cons c r =>
    rw [hx] at he hcs
    simp only [takeSign] at he
    split at he
    · rename_i hc; subst hc
      exact h _ tail ⟨_, ds, hw, hne, hd, ht, .inr (.inr ⟨(hcs.trans (by rw [show r = ds ++ tail from he])).trans (by simp), rfl⟩)⟩
    · split at he
      · rename_i hc; subst hc
        exact h _ tail ⟨_, ds, hw, hne, hd, ht, .inr (.inl ⟨(hcs.trans (by rw [show r = ds ++ tail from he])).trans (by simp), rfl⟩)⟩
      · exact h _ tail ⟨_, ds, hw, hne, hd, ht, .inl ⟨(hcs.trans (by rw [show c :: r = ds ++ tail from he])).trans (by simp), rfl⟩⟩

/-- `cs` begins with an integer in the range of `int`: white space, sign, digits; anything may follow. -/
def IsInt (cs : List Char) (n : Int) : Prop := InInt n ∧ ∃ tail, IntText cs n tail

/-- `cs` does not begin with an integer. -/
def NotInt (cs : List Char) : Prop := ∀ n tail, ¬ IntText cs n tail

theorem isInt_show {n : Int} (h : InInt n) : IsInt (showInt n) n :=
  ⟨h, [], by simpa using showInt_text n [] (by simp)⟩

theorem intArg_prints {cs : List Char} {n : Int} (h : IsInt cs n) : Prints (intArg cs) [] n := by
  obtain ⟨hn, tail, ht⟩ := h
  unfold intArg
  refine Prints.then (a := some (n, tail)) (prints_lift ?_) (prints_pure _)
  rw [scanD_text ht, if_pos hn]

theorem intArg_exits {cs : List Char} (h : NotInt cs) : Exits (intArg cs) [] := by
  unfold intArg
  exact (prints_lift (scanD_none h)).bind_exits (t := []) exits_exit1

theorem intArg_ub {cs tail : List Char} {n : Int} (h : IntText cs n tail) (hn : ¬ InInt n) :
    IsUb (intArg cs) := by
  unfold intArg
  rw [scanD_text h, if_neg hn]
  rfl

/-- A range: `lo-hi`, or a single number if no number follows the dash. -/
def IsRange (cs : List Char) (lo hi : Int) : Prop :=
  InInt lo ∧ InInt hi ∧ ∃ t, IntText cs lo t ∧
    ((∃ u v, t = '-' :: u ∧ IntText u hi v) ∨ (hi = lo ∧ ∀ u, t = '-' :: u → NotInt u))

theorem rangeArg_prints {cs : List Char} {lo hi : Int} (h : IsRange cs lo hi) : Prints (rangeArg cs) [] (lo, hi) := by
  obtain ⟨h1, h2, t, ht, h⟩ := h
  unfold rangeArg
  refine Prints.then (a := some (lo, t)) (prints_lift (by rw [scanD_text ht, if_pos h1])) ?_
  rcases h with ⟨u, v, rfl, hu⟩ | ⟨rfl, hu⟩
  · refine Prints.then (a := some (hi, v)) (prints_lift (by rw [scanD_text hu, if_pos h2])) (prints_pure _)
  · split
    · rename_i he; simp at he
    · rename_i he
      simp only [Option.some.injEq, Prod.mk.injEq] at he
      obtain ⟨rfl, rfl⟩ := he
      exact Prints.then (prints_lift (scanD_none (hu _ rfl))) (prints_pure _)
    · rename_i he
      simp only [Option.some.injEq, Prod.mk.injEq] at he
      obtain ⟨rfl, rfl⟩ := he
      exact prints_pure _

theorem rangeArg_exits {cs : List Char} (h : NotInt cs) : Exits (rangeArg cs) [] := by
  unfold rangeArg
  exact (prints_lift (scanD_none h)).bind_exits (t := []) exits_exit1

/-- A counting loop all of whose steps print. -/
theorem forRange_prints {body : Int → Cmd Unit} {txt : Int → List Char} (lo hi : Int) (hlo : InInt lo) (hhi : hi < INT_MAX)
    (hb : ∀ n, lo ≤ n → n ≤ hi → Prints (body n) (txt n) ()) (k : Nat) (hk : (hi - lo + 1).toNat ≤ k) :
    Prints (forRange body k lo hi) ((List.range (hi - lo + 1).toNat).flatMap fun i : Nat => txt (lo + i)) () := by
  induction k generalizing lo with
  | zero =>
    have : ¬ lo ≤ hi := by omega
    unfold forRange
    rw [if_neg this, show (hi - lo + 1).toNat = 0 by omega]
    exact prints_pure ()
  | succ k ih =>
    unfold forRange
    by_cases h : lo ≤ hi
    · rw [if_pos h, show (hi - lo + 1).toNat = (hi - (lo + 1) + 1).toNat + 1 by omega, List.range_succ_eq_map,
        List.flatMap_cons]
      have hI : InInt (lo + 1) := by unfold InInt INT_MAX at *; omega
      refine Prints.bind (by simpa using hb lo le_rfl h) (Prints.then (a := lo + 1) (prints_lift ?_) ?_)
      · unfold iadd chk; rw [if_pos hI]
      · have := ih (lo + 1) hI (fun n h1 h2 => hb n (by omega) h2) (by omega)
        rw [List.flatMap_map]
        convert this using 3
        push_cast
        ring_nf
    · rw [if_neg h, show (hi - lo + 1).toNat = 0 by omega]
      exact prints_pure ()

/-- A counting loop that throws at `m`. -/
theorem forRange_throws {body : Int → Cmd Unit} {txt : Int → List Char} (lo m hi : Int) (hlo : InInt lo) (hm : lo ≤ m)
    (hhi : m ≤ hi) (hI : InInt m)
    (hb : ∀ n, lo ≤ n → n < m → Prints (body n) (txt n) ()) (ht : ThrowsC (body m) []) (k : Nat)
    (hk : (hi - lo + 1).toNat ≤ k) :
    ThrowsC (forRange body k lo hi) ((List.range (m - lo).toNat).flatMap fun i : Nat => txt (lo + i)) := by
  induction k generalizing lo with
  | zero => omega
  | succ k ih =>
    unfold forRange
    rw [if_pos (by omega)]
    rcases hm.eq_or_lt with rfl | h
    · rw [show (lo - lo).toNat = 0 by omega]
      exact ht.bind
    · rw [show (m - lo).toNat = (m - (lo + 1)).toNat + 1 by omega, List.range_succ_eq_map, List.flatMap_cons, List.flatMap_map]
      have hI1 : InInt (lo + 1) := by unfold InInt at *; omega
      refine Prints.bind_throws (by simpa using hb lo le_rfl h) ?_
      refine Prints.bind_throws (t := []) (a := lo + 1) (prints_lift (by unfold iadd chk; rw [if_pos hI1])) ?_
      have := ih (lo + 1) hI1 (by omega) (fun n h1 h2 => hb n (by omega) h2) (by omega)
      convert this using 3
      refine congrArg List.flatten (List.map_congr_left fun i _ => ?_)
      congr 1
      push_cast
      ring

end Spffl.Cmd
