import Verif.Model.CmdPoly
import Verif.Proof.Cmd
import Verif.Proof.FacDivisors
import Verif.Proof.ExprMat
import Mathlib.Algebra.EuclideanDomain.Basic
import Mathlib.Tactic.Ring
import Mathlib.Tactic.Push

/-! Rules for the polynomial commands. -/

namespace Spffl.Cmd
open Res Scan

variable {α R : Type}

/-- `T` reads the texts `Lit cs x` as `x`, and writes `x` as `txt x`. -/
structure ToolRef (T : Tool α) (rep : α → R → Prop) (Lit : List Char → R → Prop) (txt : R → List Char) : Prop where
  read : ∀ {cs x}, Lit cs x → ∃ a, T.read cs = ok (some a) ∧ rep a x
  sh : ∀ {a x}, rep a x → T.sh a = ok (txt x)

theorem Prints.of_eq {β : Type} {c : Cmd β} {t t' : List Char} {a : β} (h : Prints c t a) (e : t = t') : Prints c t' a := e ▸ h
theorem Exits.of_eq {β : Type} {c : Cmd β} {t t' : List Char} (h : Exits c t) (e : t = t') : Exits c t' := e ▸ h
theorem ThrowsC.of_eq {β : Type} {c : Cmd β} {t t' : List Char} (h : ThrowsC c t) (e : t = t') : ThrowsC c t' := e ▸ h

theorem Prints.then_exits {β γ : Type} {x : Cmd β} {f : β → Cmd γ} {s : List Char} {a : β} (h : Prints x [] a)
    (h' : Exits (f a) s) : Exits (x >>= f) s := by simpa using h.bind_exits h'

theorem Prints.then_throws {β γ : Type} {x : Cmd β} {f : β → Cmd γ} {s : List Char} {a : β} (h : Prints x [] a)
    (h' : ThrowsC (f a) s) : ThrowsC (x >>= f) s := by simpa using h.bind_throws h'

theorem ub_lift {β : Type} {r : Res β} (h : r = .ub) : IsUb (lift r) := by subst h; rfl

theorem readArg_prints {read : List Char → Res (Option α)} {cs : List Char} {a : α} (h : read cs = ok (some a)) :
    Prints (readArg read cs) [] a := by
  unfold readArg
  exact (prints_lift h).then (prints_pure a)

theorem readArg_exits {read : List Char → Res (Option α)} {cs : List Char} (h : read cs = ok none) :
    Exits (readArg read cs) [] := by
  unfold readArg
  exact (prints_lift h).then_exits exits_exit1

theorem put_prints {sh : α → Res (List Char)} {a : α} {t : List Char} (h : sh a = ok t) : Prints (put sh a) t () := by
  unfold put
  exact (prints_lift h).then (prints_out t)

theorem putLine_prints {sh : α → Res (List Char)} {a : α} {t : List Char} (h : sh a = ok t) :
    Prints (putLine sh a) (t ++ ['\n']) () := by
  unfold putLine
  exact (put_prints h).bind (prints_out _)

theorem outLine_prints (t : List Char) : Prints (outLine t) (t ++ ['\n']) () := prints_out _

section Tool
variable {T : Tool α} {rep : α → R → Prop} {Lit : List Char → R → Prop} {txt : R → List Char}

/-- The text in front of a result. -/
def lab (several : Bool) (t sep : List Char) : List Char := if several then t ++ sep else []

theorem putLabel_prints {a : α} {t : List Char} (several : Bool) (sep : List Char) (h : T.sh a = ok t) :
    Prints (putLabel T several a sep) (lab several t sep) () := by
  cases several
  · exact prints_pure ()
  · exact (put_prints h).bind (prints_out sep)

variable (H : ToolRef T rep Lit txt)
include H

theorem deg1_prints {several : Bool} {cs : List Char} {x : R} {d : Int} (h : Lit cs x) (hd : ∀ a, rep a x → T.deg a = ok d) :
    Prints (deg1 T several cs) (lab several (txt x) ": ".toList ++ showInt d ++ ['\n']) () := by
  obtain ⟨a, h1, h2⟩ := H.read h
  unfold deg1
  exact ((readArg_prints h1).then ((putLabel_prints several _ (H.sh h2)).bind ((prints_lift (hd a h2)).then
    (outLine_prints _)))).of_eq (by simp)

theorem foldPolys_prints {op : α → α → Res α} {I : List R → R → Prop} {args : List (List Char)} {ys : List R}
    (h : List.Forall₂ Lit args ys) : ∀ (pre0 : List R) (a : α) (x : R), rep a x → I pre0 x →
    (∀ pre y post, pre0 ++ ys = pre ++ y :: post → ∀ a b g, rep a g → I pre g → rep b y →
      ∃ c z, op a b = ok c ∧ rep c z ∧ I (pre ++ [y]) z) →
    ∃ c z, Prints (foldPolys T op a args) [] c ∧ rep c z ∧ I (pre0 ++ ys) z := by
  induction h with
  | nil =>
    intro pre0 a x ha hI _
    exact ⟨a, x, prints_pure a, ha, by simpa using hI⟩
  | @cons cs y args ys h1 h2 ih =>
    intro pre0 a x ha hI hs
    obtain ⟨b, hb, hb'⟩ := H.read h1
    obtain ⟨c, z, e1, e2, e3⟩ := hs pre0 y ys rfl a b x ha hI hb'
    obtain ⟨c', z', f1, f2, f3⟩ := ih (pre0 ++ [y]) c z e2 e3 (fun pre y' post he => hs pre y' post (by simpa using he))
    exact ⟨c', z', (readArg_prints hb).then ((prints_lift e1).then f1), f2, by simpa using f3⟩

/-- The arguments up to a bad one can be combined; then the command gives up. -/
theorem foldPolys_exits {op : α → α → Res α} {I : List R → R → Prop} {args post : List (List Char)} {ys : List R} {bad : List Char}
    (h : List.Forall₂ Lit args ys) (hbad : T.read bad = ok none) : ∀ (pre0 : List R) (a : α) (x : R), rep a x → I pre0 x →
    (∀ pre y post, pre0 ++ ys = pre ++ y :: post → ∀ a b g, rep a g → I pre g → rep b y →
      ∃ c z, op a b = ok c ∧ rep c z ∧ I (pre ++ [y]) z) →
    Exits (foldPolys T op a (args ++ bad :: post)) [] := by
  induction h with
  | nil =>
    intro pre0 a x ha hI _
    exact (readArg_exits hbad).bind
  | @cons cs y args ys h1 h2 ih =>
    intro pre0 a x ha hI hs
    obtain ⟨b, hb, hb'⟩ := H.read h1
    obtain ⟨c, z, e1, e2, e3⟩ := hs pre0 y ys rfl a b x ha hI hb'
    exact (readArg_prints hb).then_exits ((prints_lift e1).then_exits
      (ih (pre0 ++ [y]) c z e2 e3 (fun pre y' post he => hs pre y' post (by simpa using he))))

theorem foldPolys_throws {op : α → α → Res α} {I : List R → R → Prop} {args post : List (List Char)} {ys : List R} {bad : List Char}
    {w : R} (h : List.Forall₂ Lit args ys) (hbad : Lit bad w) : ∀ (pre0 : List R) (a : α) (x : R), rep a x → I pre0 x →
    (∀ pre y post, pre0 ++ ys = pre ++ y :: post → ∀ a b g, rep a g → I pre g → rep b y →
      ∃ c z, op a b = ok c ∧ rep c z ∧ I (pre ++ [y]) z) →
    (∀ a b g, rep a g → I (pre0 ++ ys) g → rep b w → op a b = .throw) →
    ThrowsC (foldPolys T op a (args ++ bad :: post)) [] := by
  induction h with
  | nil =>
    intro pre0 a x ha hI _ ht
    obtain ⟨b, hb, hb'⟩ := H.read hbad
    exact (readArg_prints hb).then_throws (throws_lift (ht a b x ha (by simpa using hI) hb')).bind
  | @cons cs y args ys h1 h2 ih =>
    intro pre0 a x ha hI hs ht
    obtain ⟨b, hb, hb'⟩ := H.read h1
    obtain ⟨c, z, e1, e2, e3⟩ := hs pre0 y ys rfl a b x ha hI hb'
    exact (readArg_prints hb).then_throws ((prints_lift e1).then_throws
      (ih (pre0 ++ [y]) c z e2 e3 (fun pre y' post he => hs pre y' post (by simpa using he)) (by simpa using ht)))

/-- The whole folding command. -/
theorem foldPolyCmd_prints {op : α → α → Res α} {I : List R → R → Prop} {x0 : List Char} {args : List (List Char)} {x : R} {ys : List R}
    (h0 : Lit x0 x) (h : List.Forall₂ Lit args ys) (hI : I [x] x)
    (hs : ∀ pre y post, x :: ys = pre ++ y :: post → ∀ a b g, rep a g → I pre g → rep b y →
      ∃ c z, op a b = ok c ∧ rep c z ∧ I (pre ++ [y]) z) :
    ∃ z, Prints (foldPolyCmd T op (x0 :: args)) (txt z ++ ['\n']) () ∧ I (x :: ys) z := by
  obtain ⟨a, h1, h2⟩ := H.read h0
  obtain ⟨c, z, e1, e2, e3⟩ := foldPolys_prints H h [x] a x h2 hI hs
  exact ⟨z, (readArg_prints h1).then (e1.then (putLine_prints (H.sh e2))), e3⟩

theorem foldPolyCmd_exits {op : α → α → Res α} {I : List R → R → Prop} {x0 bad : List Char} {args post : List (List Char)} {x : R}
    {ys : List R} (h0 : Lit x0 x) (h : List.Forall₂ Lit args ys) (hbad : T.read bad = ok none) (hI : I [x] x)
    (hs : ∀ pre y post, x :: ys = pre ++ y :: post → ∀ a b g, rep a g → I pre g → rep b y →
      ∃ c z, op a b = ok c ∧ rep c z ∧ I (pre ++ [y]) z) :
    Exits (foldPolyCmd T op (x0 :: (args ++ bad :: post))) [] := by
  obtain ⟨a, h1, h2⟩ := H.read h0
  exact (readArg_prints h1).then_exits (foldPolys_exits H h hbad [x] a x h2 hI hs).bind

theorem foldPolyCmd_throws {op : α → α → Res α} {I : List R → R → Prop} {x0 bad : List Char} {args post : List (List Char)} {x w : R}
    {ys : List R} (h0 : Lit x0 x) (h : List.Forall₂ Lit args ys) (hbad : Lit bad w) (hI : I [x] x)
    (hs : ∀ pre y post, x :: ys = pre ++ y :: post → ∀ a b g, rep a g → I pre g → rep b y →
      ∃ c z, op a b = ok c ∧ rep c z ∧ I (pre ++ [y]) z)
    (ht : ∀ a b g, rep a g → I (x :: ys) g → rep b w → op a b = .throw) :
    ThrowsC (foldPolyCmd T op (x0 :: (args ++ bad :: post))) [] := by
  obtain ⟨a, h1, h2⟩ := H.read h0
  exact (readArg_prints h1).then_throws (foldPolys_throws H h hbad [x] a x h2 hI hs ht).bind

theorem gcdCmd_prints {x y : List Char} {u v : R} (hx : Lit x u) (hy : Lit y v) {P : R → Prop}
    (hg : ∀ a b, rep a u → rep b v → ∃ c z, T.gcd a b = ok c ∧ rep c z ∧ P z) :
    ∃ z, Prints (gcdCmd T x y) (txt z ++ ['\n']) () ∧ P z := by
  obtain ⟨a, h1, h2⟩ := H.read hx
  obtain ⟨b, h3, h4⟩ := H.read hy
  obtain ⟨c, z, e1, e2, e3⟩ := hg a b h2 h4
  exact ⟨z, (readArg_prints h1).then ((readArg_prints h3).then ((prints_lift e1).then (putLine_prints (H.sh e2)))), e3⟩

/-- `g = r * u + s * v` -/
def extText (txt : R → List Char) (g r u s v : R) : List Char :=
  txt g ++ " = ".toList ++ txt r ++ " * ".toList ++ txt u ++ " + ".toList ++ txt s ++ " * ".toList ++ txt v ++ ['\n']

theorem extCmd_prints {test : Bool} {x y : List Char} {u v : R} (hx : Lit x u) (hy : Lit y v) {P : R → R → R → Prop}
    (hg : ∀ a b, rep a u → rep b v → ∃ g r s G r' s', T.ext a b = ok (g, r, s) ∧ rep g G ∧ rep r r' ∧ rep s s' ∧ P G r' s' ∧
      (test = true → ∃ m n c, T.O.mul a r = ok m ∧ T.O.mul b s = ok n ∧ T.add m n = ok c ∧ T.ne g c = ok false)) :
    ∃ G r s, Prints (extCmd T test x y) (extText txt G r u s v) () ∧ P G r s := by
  obtain ⟨a, h1, h2⟩ := H.read hx
  obtain ⟨b, h3, h4⟩ := H.read hy
  obtain ⟨g, r, s, G, r', s', e1, e2, e3, e4, e5, e6⟩ := hg a b h2 h4
  refine ⟨G, r', s', ?_, e5⟩
  unfold extCmd
  refine ((readArg_prints h1).then ((readArg_prints h3).then ((prints_lift e1).then
    ((put_prints (H.sh e2)).bind ((prints_out _).bind ((put_prints (H.sh e3)).bind ((prints_out _).bind
    ((put_prints (H.sh h2)).bind ((prints_out _).bind ((put_prints (H.sh e4)).bind ((prints_out _).bind
    ((putLine_prints (H.sh h4)).bind (s := []) ?_)))))))))))).of_eq (by simp [extText])
  cases test
  · exact prints_pure ()
  · obtain ⟨m, n, c, f1, f2, f3, f4⟩ := e6 rfl
    exact (prints_lift f1).then ((prints_lift f2).then ((prints_lift f3).then ((prints_lift f4).then (prints_pure ()))))

theorem totient1_prints {several : Bool} {cs : List Char} {x : R} {d : Int} (h : Lit cs x) (hd : ∀ a, rep a x → T.totient a = ok d) :
    Prints (totient1 T several cs) (lab several (txt x) ": ".toList ++ showInt d ++ ['\n']) () := by
  obtain ⟨a, h1, h2⟩ := H.read h
  unfold totient1
  exact ((readArg_prints h1).then ((prints_lift (hd a h2)).then ((putLabel_prints several _ (H.sh h2)).bind
    (outLine_prints _)))).of_eq (by simp)

theorem test1_prints {several b : Bool} {cs : List Char} {x : R} (h : Lit cs x) (hd : ∀ a, rep a x → T.irr a = ok b) :
    Prints (test1 T several cs) (lab several (txt x) ": ".toList ++ if b then "IRREDUCIBLE\n".toList else "reducible\n".toList) () := by
  obtain ⟨a, h1, h2⟩ := H.read h
  unfold test1
  refine (readArg_prints h1).then ((putLabel_prints several _ (H.sh h2)).bind ((prints_lift (hd a h2)).then ?_))
  cases b
  · exact prints_out _
  · exact prints_out _

omit H in
/-- A factor with its exponent. -/
def powText (txt : R → List Char) (q : R × ℕ) : List Char := txt q.1 ++ if q.2 = 1 then [] else '^' :: showNat q.2

omit H in
/-- The unit, if any, and the powers, with spaces in between. -/
def facText (txt : R → List Char) (u : Option R) (l : List (R × ℕ)) : List Char :=
  List.intercalate [' '] (u.toList.map txt ++ l.map (powText txt))

theorem putPower_prints {p : α × Int} {q : R × ℕ} (h : FacInfo.PRel rep p q) : Prints (putPower T.sh p) (powText txt q) () := by
  unfold putPower powText
  refine (put_prints (H.sh h.1)).bind ?_
  by_cases h1 : q.2 = 1
  · rw [if_neg (by rw [h.2]; omega), if_pos h1]
    exact prints_pure ()
  · rw [if_pos (by rw [h.2]; omega), if_neg h1, h.2]
    refine (prints_out _).of_eq ?_
    unfold showInt; simp

theorem putPowers_prints {g : List (α × Int)} {l : List (R × ℕ)} (h : List.Forall₂ (FacInfo.PRel rep) g l) :
    Prints (putPowers T.sh g) (l.flatMap fun q => ' ' :: powText txt q) () := by
  induction h with
  | nil => exact prints_pure ()
  | cons h1 h2 ih => exact ((prints_out _).bind ((putPower_prints H h1).bind ih)).of_eq (by simp)

omit H in
theorem intercalate_cons_flat {β : Type} (s a : List β) (l : List (List β)) :
    List.intercalate s (a :: l) = a ++ l.flatMap fun b => s ++ b := by
  induction l generalizing a with
  | nil => simp [List.intercalate]
  | cons b l ih =>
    rw [List.intercalate_cons_cons, ih]
    simp

theorem putFac_prints {f : FacInfo α} {l : List (R × ℕ)} {u : Option R} (h : FacInfo.Den rep f l u) :
    Prints (putFac T.sh f) (facText txt u l) () := by
  obtain ⟨h1, h2⟩ := h
  obtain ⟨facs, unit⟩ := f
  unfold putFac facText
  dsimp only at h1 h2 ⊢
  cases h2 with
  | some hu =>
    refine ((put_prints (H.sh hu)).bind (putPowers_prints H h1)).of_eq ?_
    simp [intercalate_cons_flat, List.flatMap_map]
  | none =>
    cases h1 with
    | nil => exact prints_pure ()
    | cons h1 h2 =>
      refine ((putPower_prints H h1).bind (putPowers_prints H h2)).of_eq ?_
      simp [intercalate_cons_flat, List.flatMap_map]

theorem factor1_prints {several : Bool} {cs : List Char} {x : R} {l : List (R × ℕ)} {u : Option R} (h : Lit cs x)
    (hf : ∀ a, rep a x → ∃ f one check, T.factor a = ok f ∧ FacInfo.Den rep f l u ∧ T.one = ok one ∧
      FacInfo.unfactor T.O f one = ok check ∧ T.ne check a = ok false) :
    Prints (factor1 T several cs) (lab several (txt x) " = ".toList ++ facText txt u l ++ ['\n']) () := by
  obtain ⟨a, h1, h2⟩ := H.read h
  obtain ⟨f, one, check, e1, e2, e3, e4, e5⟩ := hf a h2
  unfold factor1
  refine ((readArg_prints h1).then ((putLabel_prints several _ (H.sh h2)).bind ((prints_lift e1).then
    ((putFac_prints H e2).bind ((prints_out _).bind (s := []) ((prints_lift e3).then ((prints_lift e4).then
    ((prints_lift e5).then ?_)))))))).of_eq (by simp)
  exact prints_pure ()

theorem putSpaced_prints {L : List α} {xs : List R} (h : List.Forall₂ rep L xs) :
    Prints (putSpaced T.sh L) (List.intercalate [' '] (xs.map txt)) () := by
  induction h with
  | nil => exact prints_pure ()
  | @cons a x L xs h1 h2 ih =>
    cases h2 with
    | nil => exact (put_prints (H.sh h1)).of_eq (by simp [List.intercalate])
    | cons h3 h4 =>
      refine ((put_prints (H.sh h1)).bind ((prints_out _).bind ih)).of_eq ?_
      simp [List.intercalate_cons_cons]

theorem divisors1_prints {several : Bool} {cs : List Char} {x : R} {xs : List R} (h : Lit cs x)
    (hf : ∀ a, rep a x → ∃ f one L, T.factor a = ok f ∧ T.one = ok one ∧ FacInfo.get_all_divisors T.O f one = ok L ∧
      List.Forall₂ rep L xs) :
    Prints (divisors1 T false several cs) (lab several (txt x) ": ".toList ++ List.intercalate [' '] (xs.map txt) ++ ['\n']) () := by
  obtain ⟨a, h1, h2⟩ := H.read h
  obtain ⟨f, one, L, e1, e2, e3, e4⟩ := hf a h2
  unfold divisors1
  refine ((readArg_prints h1).then ((putLabel_prints several _ (H.sh h2)).bind ((prints_lift e1).then
    ((prints_lift e2).then ?_)))).of_eq (List.append_assoc _ _ _).symm
  exact (prints_lift e3).then ((putSpaced_prints H e4).bind (prints_out _))

theorem divisors1_mp_prints {several : Bool} {cs : List Char} {x : R} {xs : List R} (h : Lit cs x)
    (hf : ∀ a, rep a x → ∃ f one L, T.factor a = ok f ∧ T.one = ok one ∧
      FacInfo.get_maximal_proper_divisors T.O f one = ok (some L) ∧ List.Forall₂ rep L xs) :
    Prints (divisors1 T true several cs) (lab several (txt x) ": ".toList ++ List.intercalate [' '] (xs.map txt) ++ ['\n']) () := by
  obtain ⟨a, h1, h2⟩ := H.read h
  obtain ⟨f, one, L, e1, e2, e3, e4⟩ := hf a h2
  unfold divisors1
  refine ((readArg_prints h1).then ((putLabel_prints several _ (H.sh h2)).bind ((prints_lift e1).then
    ((prints_lift e2).then ?_)))).of_eq (List.append_assoc _ _ _).symm
  exact (prints_lift e3).then ((putSpaced_prints H e4).bind (prints_out _))

theorem divisors1_mp_none {several : Bool} {cs : List Char} {x : R} (h : Lit cs x)
    (hf : ∀ a, rep a x → ∃ f one, T.factor a = ok f ∧ T.one = ok one ∧ FacInfo.get_maximal_proper_divisors T.O f one = ok none) :
    Prints (divisors1 T true several cs) (lab several (txt x) ": ".toList ++ "(none)\n".toList) () := by
  obtain ⟨a, h1, h2⟩ := H.read h
  obtain ⟨f, one, e1, e2, e3⟩ := hf a h2
  unfold divisors1
  refine (readArg_prints h1).then ((putLabel_prints several _ (H.sh h2)).bind ((prints_lift e1).then
    ((prints_lift e2).then ?_)))
  exact (prints_lift e3).then (prints_out _)

theorem crout_prints {L : List α} {xs : List R} (h : List.Forall₂ rep L xs) :
    Prints (crout T.sh L) (xs.flatMap fun x => txt x ++ ['\n']) () := by
  induction h with
  | nil => exact prints_pure ()
  | cons h1 h2 ih => exact (putLine_prints (H.sh h1)).bind ih

end Tool

theorem degrees_prints {body : Int → Cmd Unit} {txt : Int → List Char} {cs : List Char} {lo hi : Int} (h : IsRange cs lo hi)
    (hhi : hi < INT_MAX) (hb : ∀ n, lo ≤ n → n ≤ hi → Prints (body n) (txt n) ()) :
    Prints (degrees body cs) ((List.range (hi - lo + 1).toNat).flatMap fun i : ℕ => txt (lo + i)) () := by
  unfold degrees
  exact (rangeArg_prints h).then (forRange_prints lo hi h.1 hhi hb _ le_rfl)

theorem degrees_throws {body : Int → Cmd Unit} {txt : Int → List Char} {cs : List Char} {lo hi m : Int} (h : IsRange cs lo hi)
    (hm : lo ≤ m) (hhi : m ≤ hi) (hb : ∀ n, lo ≤ n → n < m → Prints (body n) (txt n) ()) (ht : ThrowsC (body m) []) :
    ThrowsC (degrees body cs) ((List.range (m - lo).toNat).flatMap fun i : ℕ => txt (lo + i)) := by
  unfold degrees
  refine (rangeArg_prints h).then_throws (forRange_throws lo m hi h.1 hm hhi ?_ hb ht _ le_rfl)
  have h1 := h.1
  have h2 := h.2.1
  unfold InInt at *
  omega

theorem degrees_exits {body : Int → Cmd Unit} {cs : List Char} (h : NotInt cs) : Exits (degrees body cs) [] := by
  unfold degrees
  exact (rangeArg_exits h).bind

end Spffl.Cmd

namespace Spffl.Cmd
open Res Scan

/-- The product divided by the greatest common divisor is the least common multiple. -/
theorem lcm_of_gcd {R : Type} [EuclideanDomain R] {x y z q : R} (hz : z ≠ 0) (hg : ∀ d, d ∣ z ↔ d ∣ x ∧ d ∣ y) (hq : q * z = x * y) (d : R) :
    q ∣ d ↔ x ∣ d ∧ y ∣ d := by
  classical
  obtain ⟨⟨x', hx⟩, ⟨y', hy⟩⟩ := (hg z).1 dvd_rfl
  constructor
  · intro h
    have h1 : q = x * y' := mul_right_cancel₀ hz (by rw [hq, hy]; ring)
    have h2 : q = y * x' := mul_right_cancel₀ hz (by rw [hq, hx]; ring)
    exact ⟨(Dvd.intro _ h1.symm).trans h, (Dvd.intro _ h2.symm).trans h⟩
  · rintro ⟨hxd, hyd⟩
    obtain ⟨t, ht⟩ := (hg (EuclideanDomain.gcd x y)).2 (EuclideanDomain.gcd_dvd x y)
    have hb := EuclideanDomain.gcd_eq_gcd_ab x y
    have h1 : x * y ∣ d * z := by
      rw [ht, hb]
      have e : d * ((x * EuclideanDomain.gcdA x y + y * EuclideanDomain.gcdB x y) * t) =
          x * d * (EuclideanDomain.gcdA x y * t) + d * y * (EuclideanDomain.gcdB x y * t) := by ring
      rw [e]
      exact dvd_add (Dvd.dvd.mul_right (mul_dvd_mul_left _ hyd) _) (Dvd.dvd.mul_right (mul_dvd_mul_right hxd _) _)
    rw [← hq] at h1
    exact (mul_dvd_mul_iff_right hz).1 h1

/-- Two zeros in a list: the first place where the second one is. -/
theorem two_zeros {R : Type} [Zero R] (fs : List R) (h : ¬ fs.Pairwise fun x y => x ≠ 0 ∨ y ≠ 0) :
    ∃ pre post, fs = pre ++ 0 :: post ∧ pre.Pairwise (fun x y => x ≠ 0 ∨ y ≠ 0) ∧ (0 : R) ∈ pre := by
  induction fs using List.reverseRecOn with
  | nil => exact absurd .nil h
  | append_singleton l w ih =>
    by_cases hl : l.Pairwise fun x y => x ≠ 0 ∨ y ≠ 0
    · rw [List.pairwise_append] at h
      push Not at h
      obtain ⟨x, hx, y, hy, h1, h2⟩ := h hl (List.pairwise_singleton _ _)
      rw [List.mem_singleton] at hy
      subst hy h1 h2
      exact ⟨l, [], rfl, hl, hx⟩
    · obtain ⟨pre, post, e, h1, h2⟩ := ih hl
      exact ⟨pre, post ++ [w], by rw [e]; simp, h1, h2⟩

theorem forall₂_split {β γ : Type} {R : β → γ → Prop} {l : List β} {l1 l2 : List γ} (h : List.Forall₂ R l (l1 ++ l2)) :
    ∃ a b, l = a ++ b ∧ List.Forall₂ R a l1 ∧ List.Forall₂ R b l2 :=
  ⟨_, _, (List.take_append_drop l1.length l).symm, List.forall₂_take_append l l1 l2 h, List.forall₂_drop_append l l1 l2 h⟩

/-- One text per argument, related to its value. -/
theorem forM_rel {σ : Type} {L : List Char → σ → Prop} {line : σ → List Char → Prop} {body : List Char → Cmd Unit} {Q : σ → Prop}
    {args : List (List Char)} {xs : List σ} (h : List.Forall₂ L args xs) (hq : ∀ x ∈ xs, Q x)
    (hb : ∀ cs x, L cs x → Q x → ∃ t, line x t ∧ Prints (body cs) t ()) :
    ∃ ts, List.Forall₂ line xs ts ∧ Prints (args.forM body) ts.flatten () := by
  induction h with
  | nil => exact ⟨[], .nil, prints_pure ()⟩
  | cons h1 h2 ih =>
    obtain ⟨t, e1, e2⟩ := hb _ _ h1 (hq _ (by simp))
    obtain ⟨ts, e3, e4⟩ := ih fun x hx => hq x (by simp [hx])
    exact ⟨t :: ts, .cons e1 e3, by rw [forM_cons', List.flatten_cons]; exact e2.bind e4⟩

theorem forM_rel_exits {σ : Type} {L : List Char → σ → Prop} {line : σ → List Char → Prop} {body : List Char → Cmd Unit} {Q : σ → Prop}
    {args post : List (List Char)} {bad : List Char} {xs : List σ} (h : List.Forall₂ L args xs) (hq : ∀ x ∈ xs, Q x)
    (hb : ∀ cs x, L cs x → Q x → ∃ t, line x t ∧ Prints (body cs) t ()) (hx : Exits (body bad) []) :
    ∃ ts, List.Forall₂ line xs ts ∧ Exits ((args ++ bad :: post).forM body) ts.flatten := by
  obtain ⟨ts, e1, e2⟩ := forM_rel h hq hb
  refine ⟨ts, e1, ?_⟩
  rw [forM_append', forM_cons']
  exact (e2.bind_exits (s := []) hx.bind).of_eq (by simp)

theorem forM_rel_throws {σ : Type} {L : List Char → σ → Prop} {line : σ → List Char → Prop} {body : List Char → Cmd Unit} {Q : σ → Prop}
    {args post : List (List Char)} {bad t : List Char} {xs : List σ} (h : List.Forall₂ L args xs) (hq : ∀ x ∈ xs, Q x)
    (hb : ∀ cs x, L cs x → Q x → ∃ t, line x t ∧ Prints (body cs) t ()) (hx : ThrowsC (body bad) t) :
    ∃ ts, List.Forall₂ line xs ts ∧ ThrowsC ((args ++ bad :: post).forM body) (ts.flatten ++ t) := by
  obtain ⟨ts, e1, e2⟩ := forM_rel h hq hb
  refine ⟨ts, e1, ?_⟩
  rw [forM_append', forM_cons']
  exact e2.bind_throws hx.bind

/-- The rows of a matrix, one per line, the elements separated by spaces. -/
def matText {R : Type} {m n : ℕ} (txt : R → List Char) (M : Matrix (Fin m) (Fin n) R) : List Char :=
  (List.ofFn fun i => List.intercalate [' '] (List.ofFn fun j => txt (M i j)) ++ ['\n']).flatten

theorem each_map {β γ δ : Type} {f : β → Res γ} {Q : β → δ → Prop} {g : δ → γ} {bs : List β} {ds : List δ}
    (hq : List.Forall₂ Q bs ds) (h : ∀ b d, Q b d → f b = ok (g d)) : VText.each f bs = ok (ds.map g) := by
  induction hq with
  | nil => rfl
  | cons hb _ ih => rw [VText.each, h _ _ hb, ok_bind, ih, ok_bind, List.map_cons]

theorem showMat_text {α R : Type} {E : VText.EltIO α} {rep : α → R → Prop} {txt : R → List Char} {m n : ℕ} {A : TMat α}
    {M : Matrix (Fin m) (Fin n) R} (hA : MRep rep A M) (hp : ∀ a x, rep a x → E.print a = ok (txt x)) :
    VText.showMat E A = ok (matText txt M) := by
  have h := (Expr.list_rep hA).2.2
  unfold VText.showMat
  rw [each_map (g := fun xs => List.intercalate [' '] (xs.map txt)) h, ok_bind]
  · simp [matText, Expr.rowsOf, List.map_ofFn, Function.comp_def]
  · intro r xs hr
    unfold VText.showVec
    rw [each_map hr hp, ok_bind]

end Spffl.Cmd
