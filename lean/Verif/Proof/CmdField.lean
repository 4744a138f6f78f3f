import Verif.Model.CmdField
import Verif.Proof.CmdPoly
import Verif.Proof.CFactor2

/-! Rules for the commands for polynomials over a field. -/

namespace Spffl.Cmd
open Res Scan Polynomial
open CPoly (PRep)

/-- A command that treats its arguments one after the other: what it prints is one text per argument, `line several x t` with `several`
true if there is more than one; at a refused argument it stops with status 1, after the texts of those before. -/
def Each {R : Type} (Lit : List Char → R → Prop) (Bad : List Char → Prop) (A : List (List Char) → Prop) (Q : R → Prop)
    (line : Bool → R → List Char → Prop) (cmd : List (List Char) → Cmd Unit) : Prop :=
  (∀ args xs, A args → List.Forall₂ Lit args xs → (∀ x ∈ xs, Q x) →
    ∃ ts, List.Forall₂ (line (1 < args.length)) xs ts ∧ Prints (cmd args) ts.flatten ()) ∧
  (∀ pre bad post xs, A (pre ++ bad :: post) → List.Forall₂ Lit pre xs → (∀ x ∈ xs, Q x) → Bad bad →
    ∃ ts, List.Forall₂ (line (1 < (pre ++ bad :: post).length)) xs ts ∧ Exits (cmd (pre ++ bad :: post)) ts.flatten)

theorem each {R : Type} {Lit : List Char → R → Prop} {Bad : List Char → Prop} {A : List (List Char) → Prop} {Q : R → Prop}
    {line : Bool → R → List Char → Prop} {cmd : List (List Char) → Cmd Unit} {body : Bool → List Char → Cmd Unit}
    (hc : ∀ args, A args → cmd args = args.forM (body (1 < args.length)))
    (hb : ∀ several cs x, Lit cs x → Q x → ∃ t, line several x t ∧ Prints (body several cs) t ())
    (hx : ∀ several cs, Bad cs → Exits (body several cs) []) : Each Lit Bad A Q line cmd := by
  refine ⟨fun args xs ha h hq => ?_, fun pre bad post xs ha h hq hbad => ?_⟩
  · rw [hc args ha]
    exact forM_rel h hq (hb _)
  · rw [hc _ ha]
    exact forM_rel_exits h hq (hb _) (hx _ _ hbad)

/-- A command that prints nothing and has a value can be left out. -/
theorem eq_pure {β : Type} {c : Cmd β} {a : β} (h : Prints c [] a) : c = pure a := by
  cases c
  exact congrArg Cmd.mk h

theorem skip {β γ : Type} {c : Cmd β} {a : β} (h : Prints c [] a) (f : β → Cmd γ) : (c >>= f) = f a := by
  rw [eq_pure h]
  exact pure_bind _ _

/-- `w` is `a` if `P` holds, and `b` otherwise. -/
def Either (P : Prop) (a b w : List Char) : Prop := (P ∧ w = a) ∨ (¬ P ∧ w = b)

theorem either_of {P : Prop} {r : Bool} (h : r = true ↔ P) (a b : List Char) : Either P a b (if r then a else b) := by
  cases r
  · exact .inr ⟨fun hp => Bool.false_ne_true (h.2 hp), rfl⟩
  · exact .inl ⟨h.1 rfl, rfl⟩

theorem div_of_mod {K : Type} [Field K] {a b q r : K[X]} (h : a = q * b + r) (hr : r.degree < b.degree) : q = a / b := by
  have hb : b ≠ 0 := by rintro rfl; simp at hr
  have hdvd : b ∣ r - a % b := by
    have h2 := EuclideanDomain.div_add_mod a b
    exact ⟨a / b - q, by linear_combination -h2 - h⟩
  have h1 : r = a % b := sub_eq_zero.1 (eq_zero_of_dvd_of_degree_lt hdvd
    ((degree_sub_le _ _).trans_lt (max_lt hr (EuclideanDomain.mod_lt _ hb))))
  have h2 := EuclideanDomain.div_add_mod a b
  exact mul_left_cancel₀ hb (by linear_combination -h - h2 - h1 : b * q = b * (a / b))

section
variable {α K : Type} [Field K] {X : FCtx α} {rep : α → K → Prop} {ord : K → K → Prop} {read : List Char → Res (PText.Parsed α)}
  {sh : CPoly α → Res (List Char)} {c1 : Res α} {Lit : List Char → K[X] → Prop} {txt : K[X] → List Char}

/-! ### degree, greatest common divisor, least common multiple -/

theorem field_deg (hT : ToolRef (fieldTool X read sh c1) (PRep rep) Lit txt) {several : Bool} {cs : List Char} {f : K[X]} (h : Lit cs f) :
    Prints (deg1 (fieldTool X read sh c1) several cs) (lab several (txt f) ": ".toList ++ showInt f.natDegree ++ ['\n']) () :=
  deg1_prints hT h fun a ha => by rw [ha.deg]; rfl

variable (H : CoefRef False X.O rep ord)
include H

theorem field_gcd {a b : CPoly α} {x y : K[X]} (ha : PRep rep a x) (hb : PRep rep b y) :
    ∃ c z, CPoly.gcd X.O a b = ok c ∧ PRep rep c z ∧ ∀ d, d ∣ z ↔ d ∣ x ∧ d ∣ y := by
  obtain ⟨c, h1, z, h2, h3⟩ := sat_false.1 (CPoly.gcd_sat H ha hb)
  exact ⟨c, z, h1, h2, fun d => ⟨fun h => ⟨h.trans h3.1, h.trans h3.2.1⟩, fun h => h3.2.2 d h.1 h.2⟩⟩

theorem field_gcd_prints (hT : ToolRef (fieldTool X read sh c1) (PRep rep) Lit txt) {x y : List Char} {u v : K[X]} (hx : Lit x u)
    (hy : Lit y v) : ∃ g, Prints (gcdCmd (fieldTool X read sh c1) x y) (txt g ++ ['\n']) () ∧ ∀ d, d ∣ g ↔ d ∣ u ∧ d ∣ v :=
  gcdCmd_prints hT hx hy fun _ _ ha hb => field_gcd H ha hb

theorem ne_false {a b : CPoly α} {x : K[X]} (ha : PRep rep a x) (hb : PRep rep b x) : polyNe X.O a b = ok false := by
  obtain ⟨d, h1, h2⟩ := sat_false.1 (CPoly.cmp_sat H ha hb)
  unfold polyNe
  rw [h1, ok_bind]
  rcases h2 with ⟨rfl, -⟩ | ⟨-, h⟩ | ⟨-, h⟩
  · rfl
  · exact absurd h (CPoly.polyLt_asymm_cmp H.toCmp h)
  · exact absurd h (CPoly.polyLt_asymm_cmp H.toCmp h)

theorem field_ext_prints (hT : ToolRef (fieldTool X read sh c1) (PRep rep) Lit txt) {x y : List Char} {u v : K[X]} (hx : Lit x u)
    (hy : Lit y v) (hv : v ≠ 0) (test : Bool) : ∃ g r s, Prints (extCmd (fieldTool X read sh c1) test x y) (extText txt g r u s v) () ∧
      g = r * u + s * v ∧ ∀ d, d ∣ g ↔ d ∣ u ∧ d ∣ v := by
  have key : ∀ a b, PRep rep a u → PRep rep b v → ∃ g r s G r' s', (fieldTool X read sh c1).ext a b = ok (g, r, s) ∧ PRep rep g G ∧
      PRep rep r r' ∧ PRep rep s s' ∧ (G = r' * u + s' * v ∧ ∀ d, d ∣ G ↔ d ∣ u ∧ d ∣ v) ∧
      (test = true → ∃ m n c, (fieldTool X read sh c1).O.mul a r = ok m ∧ (fieldTool X read sh c1).O.mul b s = ok n ∧
        (fieldTool X read sh c1).add m n = ok c ∧ (fieldTool X read sh c1).ne g c = ok false) := by
    intro a b ha hb
    obtain ⟨⟨g, r, s⟩, e0, G, r', s', e1, e2, e3, e4, e5⟩ := sat_false.1 (CPoly.ext_gcd_sat H ha hb hv)
    dsimp only at e1 e2 e3
    refine ⟨g, r, s, G, r', s', e0, e1, e2, e3, ⟨by rw [e5]; ring, fun d => ⟨fun h => ⟨h.trans e4.1, h.trans e4.2.1⟩,
      fun h => e4.2.2 d h.1 h.2⟩⟩, fun _ => ?_⟩
    obtain ⟨m, f1, f2⟩ := sat_false.1 (CPoly.mul_sat H ha e2)
    obtain ⟨n, g1, g2⟩ := sat_false.1 (CPoly.mul_sat H hb e3)
    obtain ⟨c, k1, k2⟩ := sat_false.1 (CPoly.add_sat H f2 g2)
    exact ⟨m, n, c, f1, g1, k1, ne_false H (by rw [← e5]; exact e1 : PRep rep g (u * r' + v * s')) k2⟩
  exact extCmd_prints hT hx hy key

theorem field_ext_throws (hT : ToolRef (fieldTool X read sh c1) (PRep rep) Lit txt) {x y : List Char} {u : K[X]} (hx : Lit x u)
    (hy : Lit y 0) (test : Bool) : ThrowsC (extCmd (fieldTool X read sh c1) test x y) [] := by
  obtain ⟨a, h1, h2⟩ := hT.read hx
  obtain ⟨b, h3, h4⟩ := hT.read hy
  have : (fieldTool X read sh c1).ext a b = .throw := by
    rcases CPoly.ext_gcd_zero H h2 h4 with h | ⟨h, -⟩
    · exact h
    · exact h.elim
  exact (readArg_prints h1).then_throws ((readArg_prints h3).then_throws (throws_lift this).bind)

theorem field_div {a b : CPoly α} {f g : K[X]} (ha : PRep rep a f) (hb : PRep rep b g) (hg : g ≠ 0) :
    (CPoly.div X.O a b).Sat False (fun r => PRep rep r (f / g)) := by
  unfold CPoly.div
  refine (CPoly.quot_and_rem_sat H ha hb hg (CPoly.unit_lead hg)).bind fun s hs => ?_
  obtain ⟨q, r, h1, h2, h3, h4⟩ := hs
  rw [Sat_ok, ← div_of_mod h3 h4]
  exact h1

theorem field_lcm {a b : CPoly α} {x y : K[X]} (ha : PRep rep a x) (hb : PRep rep b y) (h0 : x ≠ 0 ∨ y ≠ 0) :
    ∃ c z, lcmOp (fieldTool X read sh c1) a b = ok c ∧ PRep rep c z ∧ ∀ d, z ∣ d ↔ x ∣ d ∧ y ∣ d := by
  obtain ⟨g, z, h1, h2, h3⟩ := field_gcd H ha hb
  obtain ⟨m, e1, e2⟩ := sat_false.1 (CPoly.mul_sat H ha hb)
  have hz : z ≠ 0 := by
    rintro rfl
    have := (h3 0).1 dvd_rfl
    rw [zero_dvd_iff, zero_dvd_iff] at this
    rcases h0 with h | h
    · exact h this.1
    · exact h this.2
  obtain ⟨c, f1, f2⟩ := sat_false.1 (field_div H e2 h2 hz)
  refine ⟨c, _, ?_, f2, ?_⟩
  · show (do let m ← CPoly.mul X.O a b; let g ← CPoly.gcd X.O a b; CPoly.div X.O m g) = _
    rw [e1, ok_bind, h1, ok_bind, f1]
  · refine lcm_of_gcd hz h3 ?_
    obtain ⟨x', hx⟩ := ((h3 z).1 dvd_rfl).1
    have hq : x * y / z = x' * y := by
      rw [hx, show z * x' * y = z * (x' * y) by ring]
      exact mul_div_cancel_left₀ _ hz
    rw [hq, hx]
    ring

theorem field_lcm_zero {a b : CPoly α} (ha : PRep rep a 0) (hb : PRep rep b 0) : lcmOp (fieldTool X read sh c1) a b = .throw := by
  obtain ⟨g, z, h1, h2, h3⟩ := field_gcd H ha hb
  obtain ⟨m, e1, e2⟩ := sat_false.1 (CPoly.mul_sat H ha hb)
  have hz : z = 0 := by simpa using (h3 0).2 (by simp)
  subst hz
  show (do let m ← CPoly.mul X.O a b; let g ← CPoly.gcd X.O a b; CPoly.div X.O m g) = _
  rw [e1, ok_bind, h1, ok_bind]
  unfold CPoly.div
  rcases CPoly.quot_and_rem_zero H e2 h2 with h | ⟨h, -⟩
  · rw [h]; rfl
  · exact h.elim

theorem field_lcm_inv {fs : List K[X]} (hp : fs.Pairwise fun x y => x ≠ 0 ∨ y ≠ 0) : ∀ pre y post, fs = pre ++ y :: post →
    ∀ a b g, PRep rep a g → (∀ d, g ∣ d ↔ ∀ f ∈ pre, f ∣ d) → PRep rep b y →
      ∃ c z, lcmOp (fieldTool X read sh c1) a b = ok c ∧ PRep rep c z ∧ ∀ d, z ∣ d ↔ ∀ f ∈ pre ++ [y], f ∣ d := by
  rintro pre y post rfl a b g ha hI hb
  have h0 : g ≠ 0 ∨ y ≠ 0 := by
    by_contra h
    push Not at h
    obtain ⟨rfl, rfl⟩ := h
    have h1 : ∀ f ∈ pre, f ≠ 0 := fun f hf => by
      have := (List.pairwise_append.1 hp).2.2 f hf 0 (by simp)
      simpa using this
    have h2 : pre.prod ≠ 0 := List.prod_ne_zero fun h0 => h1 0 h0 rfl
    exact h2 (zero_dvd_iff.1 ((hI _).2 fun f hf => List.dvd_prod hf))
  obtain ⟨c, z, h1, h2, h3⟩ := field_lcm H ha hb h0
  refine ⟨c, z, h1, h2, fun d => ?_⟩
  rw [h3, hI]
  simp only [List.mem_append, List.mem_singleton]
  constructor
  · rintro ⟨h4, h5⟩ f (hf | rfl)
    · exact h4 f hf
    · exact h5
  · intro h
    exact ⟨fun f hf => h f (.inl hf), h y (.inr rfl)⟩

theorem field_lcm_prints (hT : ToolRef (fieldTool X read sh c1) (PRep rep) Lit txt) {args : List (List Char)} {fs : List K[X]}
    (hne : args ≠ []) (h : List.Forall₂ Lit args fs) (hp : fs.Pairwise fun x y => x ≠ 0 ∨ y ≠ 0) :
    ∃ l, Prints (foldPolyCmd (fieldTool X read sh c1) (lcmOp (fieldTool X read sh c1)) args) (txt l ++ ['\n']) () ∧
      ∀ d, l ∣ d ↔ ∀ f ∈ fs, f ∣ d := by
  cases h with
  | nil => exact absurd rfl hne
  | cons h1 h2 =>
    exact foldPolyCmd_prints hT (I := fun l g => ∀ d, g ∣ d ↔ ∀ f ∈ l, f ∣ d) h1 h2 (by simp) (field_lcm_inv H hp)

theorem field_lcm_exits (hT : ToolRef (fieldTool X read sh c1) (PRep rep) Lit txt) {pre post : List (List Char)} {bad : List Char}
    {fs : List K[X]} (h : List.Forall₂ Lit pre fs) (hp : fs.Pairwise fun x y => x ≠ 0 ∨ y ≠ 0)
    (hb : (fieldTool X read sh c1).read bad = ok none) :
    Exits (foldPolyCmd (fieldTool X read sh c1) (lcmOp (fieldTool X read sh c1)) (pre ++ bad :: post)) [] := by
  cases h with
  | nil => exact (readArg_exits hb).bind
  | cons h1 h2 =>
    exact foldPolyCmd_exits hT (I := fun l g => ∀ d, g ∣ d ↔ ∀ f ∈ l, f ∣ d) h1 h2 hb (by simp) (field_lcm_inv H hp)

theorem field_lcm_throws (hT : ToolRef (fieldTool X read sh c1) (PRep rep) Lit txt) {args : List (List Char)} {fs : List K[X]}
    (h : List.Forall₂ Lit args fs) (hz : ¬ fs.Pairwise fun x y => x ≠ 0 ∨ y ≠ 0) :
    ThrowsC (foldPolyCmd (fieldTool X read sh c1) (lcmOp (fieldTool X read sh c1)) args) [] ∧ ∀ d, 0 ∣ d ↔ ∀ f ∈ fs, f ∣ d := by
  obtain ⟨pre, post, rfl, h1, h2⟩ := two_zeros fs hz
  refine ⟨?_, fun d => ⟨fun hd f _ => (zero_dvd_iff.1 hd).symm ▸ dvd_zero f, fun hd => hd 0 (by simp)⟩⟩
  obtain ⟨pa, r, rfl, hpa, hr⟩ := forall₂_split h
  cases hr with
  | @cons bad _ r _ hbad hr =>
  cases hpa with
  | nil => simp at h2
  | @cons x0 x pa pre hx hpa =>
    refine foldPolyCmd_throws hT (I := fun l g => ∀ d, g ∣ d ↔ ∀ f ∈ l, f ∣ d) hx hpa hbad (by simp) (field_lcm_inv H h1) ?_
    intro a b g ha hI hb
    have hg : g = 0 := zero_dvd_iff.1 ((hI g).1 dvd_rfl 0 h2)
    subst hg
    exact field_lcm_zero H ha hb

end

/-! ### factorization -/

/-- For a constant the constant; otherwise the leading coefficient, unless it is 1, and powers of different monic irreducible polynomials
in ascending order. -/
def FactoredK {K : Type} [Field K] (key : K[X] → ℕ) (f : K[X]) (u : Option K[X]) (l : List (K[X] × ℕ)) : Prop :=
  (f.natDegree = 0 ∧ u = some f ∧ l = []) ∨
  (1 ≤ f.natDegree ∧ (f.Monic ∧ u = none ∨ ¬ f.Monic ∧ u = some (C f.leadingCoeff)) ∧ l.Pairwise (fun p q => key p.1 < key q.1) ∧
    (∀ q ∈ l, Irreducible q.1 ∧ q.1.Monic ∧ 1 ≤ q.2) ∧ C f.leadingCoeff * (l.map fun q => q.1 ^ q.2).prod = f)

/-- The polynomials with `P`, in ascending order, with spaces in between. -/
def AscendingK {K : Type} [Field K] (key : K[X] → ℕ) (txt : K[X] → List Char) (P : K[X] → Prop) (t : List Char) : Prop :=
  ∃ xs : List K[X], xs.Pairwise (fun x y => key x < key y) ∧ (∀ d, d ∈ xs ↔ P d) ∧ t = List.intercalate [' '] (xs.map txt)

/-- One polynomial for each degree from `lo` to `hi`, the least with `P`, one per line. -/
def LeastEachK {K : Type} [Field K] (key : K[X] → ℕ) (txt : K[X] → List Char) (P : ℕ → K[X] → Prop) (lo hi : Int) (t : List Char) : Prop :=
  ∃ g : Int → K[X], (∀ n, lo ≤ n → n ≤ hi → P n.toNat (g n) ∧ ∀ p, P n.toNat p → key (g n) ≤ key p) ∧
    t = (List.range (hi - lo + 1).toNat).flatMap fun i : ℕ => txt (g (lo + i)) ++ ['\n']

theorem leastEachK {K : Type} [Field K] {key : K[X] → ℕ} {txt : K[X] → List Char} {P : ℕ → K[X] → Prop} {body : Int → Cmd Unit}
    {cs : List Char} {lo hi : Int} (h : IsRange cs lo hi) (hhi : hi < INT_MAX)
    (hb : ∀ n, lo ≤ n → n ≤ hi → ∃ g, (P n.toNat g ∧ ∀ p, P n.toNat p → key g ≤ key p) ∧ Prints (body n) (txt g ++ ['\n']) ()) :
    ∃ t, LeastEachK key txt P lo hi t ∧ Prints (degrees body cs) t () := by
  choose! g h1 h2 using hb
  exact ⟨_, ⟨g, h1, rfl⟩, degrees_prints h hhi h2⟩

namespace FactoredK
variable {K : Type} [Field K] {key : K[X] → ℕ} {f : K[X]} {u : Option K[X]} {l : List (K[X] × ℕ)}

theorem coprimes (h : FactoredK key f u l) : FacInfo.Coprimes l := by
  rcases h with ⟨-, -, rfl⟩ | ⟨-, -, h1, h2, -⟩
  · exact ⟨by simp, .nil⟩
  · refine ⟨fun q hq => (h2 q hq).1.prime, h1.imp_of_mem fun {p q} hp hq hlt hd => ?_⟩
    have := eq_of_monic_of_associated (h2 p hp).2.1 (h2 q hq).2.1 ((h2 p hp).1.associated_of_dvd (h2 q hq).1 hd)
    rw [this] at hlt
    exact absurd hlt (lt_irrefl _)

theorem prod (h : FactoredK key f u l) : u.getD 1 * FacInfo.pprodR l = f := by
  rcases h with ⟨h0, rfl, rfl⟩ | ⟨h0, hu, -, -, h3⟩
  · simp [FacInfo.pprodR]
  · have : u.getD 1 = C f.leadingCoeff := by
      rcases hu with ⟨hm, rfl⟩ | ⟨-, rfl⟩
      · rw [Monic.leadingCoeff hm, C_1]; rfl
      · rfl
    rw [this]
    exact h3

theorem nonempty (h : FactoredK key f u l) : (l ≠ [] ∨ u.isSome) ∧ (1 ≤ f.natDegree → l ≠ []) := by
  rcases h with ⟨h0, rfl, rfl⟩ | ⟨h0, -, -, -, h3⟩
  · exact ⟨.inr rfl, fun h => by omega⟩
  · have : l ≠ [] := by
      rintro rfl
      rw [← h3] at h0
      simp at h0
    exact ⟨.inl this, fun _ => this⟩

theorem monic (h : FactoredK key f u l) : ∀ q ∈ l, q.1.Monic := by
  rcases h with ⟨-, -, rfl⟩ | ⟨-, -, -, h2, -⟩
  · simp
  · exact fun q hq => (h2 q hq).2.1

theorem unit (h : FactoredK key f u l) (hf : f ≠ 0) : IsUnit (u.getD 1) := by
  rcases h with ⟨h0, rfl, rfl⟩ | ⟨h0, hu, -⟩
  · exact (isUnit_iff_degree_eq_zero (p := f)).2 (by rw [degree_eq_natDegree hf, h0]; rfl)
  · rcases hu with ⟨hm, rfl⟩ | ⟨-, rfl⟩
    · exact isUnit_one
    · exact isUnit_C.2 (isUnit_iff_ne_zero.2 (leadingCoeff_ne_zero.2 hf))

end FactoredK

theorem kthR_monic {K : Type} [Field K] : ∀ (l : List (K[X] × ℕ)) (_ : ∀ q ∈ l, q.1.Monic) (k : ℕ), (FacInfo.kthR l k).Monic
  | [], _, _ => monic_one
  | q :: l, h, k => ((h q (by simp)).pow _).mul (kthR_monic l (fun q hq => h q (by simp [hq])) _)

section
variable {α K : Type} [Field K] [Fintype K] {X : FCtx α} {rep : α → K → Prop} {kv : K → ℕ} {κ : ℕ → K} {p : ℕ}
  {read : List Char → Res (PText.Parsed α)} {sh : CPoly α → Res (List Char)} {c1 : Res α} {Lit : List Char → K[X] → Prop}
  {txt : K[X] → List Char} (H : FRef X rep kv κ p)
include H

local notation "key" => polyKey (Fintype.card K) kv

theorem field_factored {a : CPoly α} {f : K[X]} (ha : PRep rep a f) (hd : (f.natDegree : Int) ≤ INT_MAX) :
    ∃ fi l u, CFac.factor X a = ok fi ∧ FacInfo.Den (PRep rep) fi l u ∧ FactoredK key f u l := by
  by_cases h0 : f.natDegree = 0
  · obtain ⟨⟨facs, unit⟩, e1, e2, b, e3, e4⟩ := sat_false.1 (CFac.factor_const H ha h0)
    cases e2
    cases e3
    exact ⟨_, [], some f, e1, ⟨.nil, .some e4⟩, .inl ⟨h0, rfl, rfl⟩⟩
  · obtain ⟨fi, e1, N, u, h1, h2, h3⟩ := sat_false.1 (CFac.factor_sat H ha (by omega) hd)
    obtain ⟨l, g1, g2, g3, g4, g5⟩ := CFac.list_of_facs h1 h2
    refine ⟨fi, l, u, e1, ⟨g1, g2⟩, .inr ⟨by omega, h3, g3, g4, ?_⟩⟩
    have hf0 : f.leadingCoeff ≠ 0 := by rw [ne_eq, leadingCoeff_eq_zero]; rintro rfl; simp at h0
    rw [g5, mul_comm, mul_assoc, ← C_mul, inv_mul_cancel₀ hf0, C_1, mul_one]

theorem field_one (h1 : ∃ o, c1 = ok o ∧ rep o 1) : ∃ o, (fieldTool X read sh c1).one = ok o ∧ PRep rep o 1 := by
  obtain ⟨o, e1, e2⟩ := h1
  obtain ⟨c, e3, e4⟩ := sat_false.1 (CPoly.const_sat H.ref e2)
  refine ⟨c, ?_, by rwa [C_1] at e4⟩
  show (do let c ← c1; CPoly.const X.O c) = _
  rw [e1, ok_bind, e3]

variable (hT : ToolRef (fieldTool X read sh c1) (PRep rep) Lit txt)
include hT

theorem field_test {several : Bool} {cs : List Char} {f : K[X]} (h : Lit cs f) (hd : (f.natDegree : Int) ≤ INT_MAX) :
    ∃ w, Either (Irreducible f) "IRREDUCIBLE\n".toList "reducible\n".toList w ∧
      Prints (test1 (fieldTool X read sh c1) several cs) (lab several (txt f) ": ".toList ++ w) () := by
  obtain ⟨a, h1, h2⟩ := hT.read h
  obtain ⟨b, e1, e2⟩ := sat_false.1 (CFac.is_irreducible_sat H h2 hd)
  refine ⟨_, either_of e2 _ _, ?_⟩
  unfold test1
  refine (readArg_prints h1).then ((putLabel_prints several _ (hT.sh h2)).bind ((prints_lift e1).then ?_))
  cases b
  · exact prints_out _
  · exact prints_out _

theorem field_totient {several : Bool} {cs : List Char} {f : K[X]} (h : Lit cs f) (hf : f ≠ 0)
    (hsz : Fintype.card K ^ (2 * f.natDegree) ≤ 2147483647) :
    Prints (totient1 (fieldTool X read sh c1) several cs) (lab several (txt f) ": ".toList ++ showInt (Nat.card (AdjoinRoot f)ˣ) ++ ['\n']) () := by
  refine totient1_prints hT h fun a ha => ?_
  show CFac.totient X a = _
  have hmax : (f.natDegree : Int) ≤ INT_MAX := by
    have h1 : 2 ^ f.natDegree ≤ Fintype.card K ^ (2 * f.natDegree) :=
      (Nat.pow_le_pow_left Fintype.one_lt_card _).trans (Nat.pow_le_pow_right Fintype.card_pos (by omega))
    have h2 := Nat.lt_two_pow_self (n := f.natDegree)
    unfold INT_MAX
    omega
  by_cases h0 : f.natDegree = 0
  · obtain ⟨fi, e1, e2, -⟩ := sat_false.1 (CFac.factor_const H ha h0)
    have hs : Subsingleton (AdjoinRoot f) := by
      have hu : IsUnit f := (isUnit_iff_degree_eq_zero).2 (by rw [degree_eq_natDegree hf, h0]; rfl)
      exact Ideal.Quotient.subsingleton_iff.2 (Ideal.span_singleton_eq_top.2 hu)
    have hu : Nat.card (AdjoinRoot f)ˣ = 1 := Nat.card_unique
    unfold CFac.totient
    rw [H.q ha, ok_bind, e1, ok_bind, e2, hu]
    rfl
  · obtain ⟨r, e1, e2⟩ := sat_false.1 (CFac.totient_sat H ha (by omega) hmax (CFac.totOk_of_sq hf hsz) (CFac.totient_le hf hsz))
    rw [e1, e2, card_units hf]
    rfl

theorem field_factor (h1 : ∃ o, c1 = ok o ∧ rep o 1) {several : Bool} {cs : List Char} {f : K[X]} (h : Lit cs f)
    (hd : (f.natDegree : Int) ≤ INT_MAX) : ∃ u l, FactoredK key f u l ∧
      Prints (factor1 (fieldTool X read sh c1) several cs) (lab several (txt f) " = ".toList ++ facText txt u l ++ ['\n']) () := by
  obtain ⟨a, g1, ha⟩ := hT.read h
  obtain ⟨fi, l, u, e1, e2, e3⟩ := field_factored H ha hd
  obtain ⟨o, o1, o2⟩ := field_one (read := read) (sh := sh) H h1
  obtain ⟨check, c1', c2⟩ := FacInfo.unfactor_ok (CFac.facRef H) e2 o2 trivial
  unfold FacInfo.prodOf at c2
  rw [FacInfo.toMs_prod] at c2
  have hp := e3.prod
  unfold FacInfo.pprodR at hp
  rw [hp] at c2
  refine ⟨u, l, e3, ?_⟩
  unfold factor1
  refine ((readArg_prints g1).then ((putLabel_prints several _ (hT.sh ha)).bind ((prints_lift e1).then
    ((putFac_prints hT e2).bind ((prints_out _).bind (s := []) ((prints_lift o1).then ((prints_lift c1').then
    ((prints_lift (ne_false H.ref c2 ha)).then ?_)))))))).of_eq (by simp only [List.append_assoc, List.append_nil])
  exact prints_pure ()

theorem field_divisors (h1 : ∃ o, c1 = ok o ∧ rep o 1) {several : Bool} {cs : List Char} {f : K[X]} (h : Lit cs f) (hf : f ≠ 0)
    (hd : (f.natDegree : Int) ≤ INT_MAX) (hcard : Set.ncard {d : K[X] | d.Monic ∧ d ∣ f} ≤ 2147483647) :
    ∃ w, AscendingK key txt (fun d => d.Monic ∧ d ∣ f) w ∧
      Prints (divisors1 (fieldTool X read sh c1) false several cs) (lab several (txt f) ": ".toList ++ w ++ ['\n']) () := by
  obtain ⟨a, g1, ha⟩ := hT.read h
  obtain ⟨fi, l, u, e1, e2, e3⟩ := field_factored H ha hd
  obtain ⟨o, o1, o2⟩ := field_one (read := read) (sh := sh) H h1
  have hk : ∀ d, (d.Monic ∧ d ∣ f) ↔ ∃ k, k < FacInfo.ndivR l ∧ FacInfo.kthR l k = d := by
    intro d
    have hp := e3.prod
    have hu := e3.unit hf
    have hdv : d ∣ f ↔ d ∣ FacInfo.pprodR l := by
      conv_lhs => rw [← hp]
      rw [hu.dvd_mul_left]
    rw [hdv]
    constructor
    · rintro ⟨hm, hd⟩
      obtain ⟨k, hk, hass⟩ := FacInfo.kthR_surj e3.coprimes d hd
      exact ⟨k, hk, eq_of_monic_of_associated (kthR_monic l e3.monic k) hm hass⟩
    · rintro ⟨k, hk, rfl⟩
      exact ⟨kthR_monic l e3.monic k, FacInfo.kthR_dvd l k⟩
  rw [← FacInfo.ndivR_eq_ncard e3.coprimes (S := {d | d.Monic ∧ d ∣ f}) hk] at hcard
  obtain ⟨L, k1, xs, k2, k3, k4⟩ := FacInfo.get_all_divisorsR (CFac.facRef H) (fun _ _ => trivial) e2 e3.coprimes hcard e3.nonempty.1 o2
  refine ⟨_, ⟨xs, k3, fun d => (k4 d).trans (hk d).symm, rfl⟩, ?_⟩
  unfold divisors1
  refine ((readArg_prints g1).then ((putLabel_prints several _ (hT.sh ha)).bind ((prints_lift e1).then
    ((prints_lift o1).then ?_)))).of_eq (List.append_assoc _ _ _).symm
  exact (prints_lift k1).then ((putSpaced_prints hT k2).bind (prints_out _))

theorem field_divisors_zero (h1 : ∃ o, c1 = ok o ∧ rep o 1) {several : Bool} {cs : List Char} (h : Lit cs 0) :
    Prints (divisors1 (fieldTool X read sh c1) false several cs) (lab several (txt 0) ": ".toList ++ txt 1 ++ ['\n']) () := by
  obtain ⟨a, g1, ha⟩ := hT.read h
  obtain ⟨⟨facs, unit⟩, e1, e2, b, e3, e4⟩ := sat_false.1 (CFac.factor_const H ha (by simp))
  cases e2
  cases e3
  obtain ⟨o, o1, o2⟩ := field_one (read := read) (sh := sh) H h1
  unfold divisors1
  refine ((readArg_prints g1).then ((putLabel_prints several _ (hT.sh ha)).bind ((prints_lift e1).then
    ((prints_lift o1).then ?_)))).of_eq (List.append_assoc _ _ _).symm
  exact (prints_lift (a := [o]) rfl).then (((putSpaced_prints hT (.cons o2 .nil)).of_eq (by simp [List.intercalate])).bind (prints_out _))

theorem field_maximal (h1 : ∃ o, c1 = ok o ∧ rep o 1) {several : Bool} {cs : List Char} {f : K[X]} (h : Lit cs f)
    (hdeg : (f.natDegree : Int) ≤ INT_MAX) :
    ∃ w, (f.natDegree = 0 ∧ w = "(none)".toList ∨
        1 ≤ f.natDegree ∧ AscendingK key txt (fun d => ∃ p, Irreducible p ∧ p.Monic ∧ d * p = f) w) ∧
      Prints (divisors1 (fieldTool X read sh c1) true several cs) (lab several (txt f) ": ".toList ++ w ++ ['\n']) () := by
  obtain ⟨a, g1, ha⟩ := hT.read h
  obtain ⟨fi, l, u, e1, e2, e3⟩ := field_factored H ha hdeg
  obtain ⟨o, o1, o2⟩ := field_one (read := read) (sh := sh) H h1
  rcases id e3 with ⟨h0, rfl, rfl⟩ | ⟨h0, hu, hs, hl, hp⟩
  · refine ⟨_, .inl ⟨h0, rfl⟩, ?_⟩
    have hn : FacInfo.get_maximal_proper_divisors (CPoly.ops X.O) fi o = ok none := by
      obtain ⟨facs, unit⟩ := fi
      have d1 := e2.1
      have d2 := e2.2
      cases d1
      cases d2
      rfl
    unfold divisors1
    refine ((readArg_prints g1).then ((putLabel_prints several _ (hT.sh ha)).bind ((prints_lift e1).then
      ((prints_lift o1).then ?_)))).of_eq (List.append_assoc _ _ _).symm
    exact (prints_lift hn).then (prints_out _)
  · have hf0 : f ≠ 0 := by rintro rfl; simp at h0
    have hexp : ∀ q ∈ l, q.2 ≤ 2147483647 := by
      intro q hq
      have hd : q.1 ^ q.2 ∣ f := hp ▸ Dvd.dvd.mul_left (List.dvd_prod (List.mem_map.2 ⟨q, hq, rfl⟩)) _
      have := natDegree_le_of_dvd hd hf0
      rw [natDegree_pow] at this
      have h1 := (hl q hq).1.natDegree_pos
      have h2 : q.2 ≤ q.2 * q.1.natDegree := Nat.le_mul_of_pos_right _ h1
      unfold INT_MAX at hdeg
      omega
    obtain ⟨r, k1, L, xs, rfl, k2, k3, k4⟩ := FacInfo.get_maximalR (CFac.facRef H) (fun _ _ => trivial) e2
      (hs.imp fun {p q} hlt he => by rw [he] at hlt; exact lt_irrefl _ hlt)
      (fun q hq => ⟨(hl q hq).1.ne_zero, (hl q hq).2.2, hexp q hq⟩) (e3.unit hf0).ne_zero (e3.nonempty.2 h0) o2
    refine ⟨_, .inr ⟨h0, xs, k3, fun d => (k4 d).trans ?_, rfl⟩, ?_⟩
    · rw [e3.prod]
      constructor
      · rintro ⟨q, hq, he⟩
        exact ⟨q.1, (hl q hq).1, (hl q hq).2.1, he⟩
      · rintro ⟨p, hp1, hp2, he⟩
        have hd : p ∣ (l.map fun q => q.1 ^ q.2).prod := by
          have h1 : p ∣ f := Dvd.intro_left _ he
          rw [← hp] at h1
          exact (isUnit_C.2 (isUnit_iff_ne_zero.2 (leadingCoeff_ne_zero.2 hf0))).dvd_mul_left.1 h1
        obtain ⟨c, hc, hpc⟩ := (Prime.dvd_prod_iff hp1.prime).1 hd
        obtain ⟨q, hq, rfl⟩ := List.mem_map.1 hc
        have hpq := hp1.prime.dvd_of_dvd_pow hpc
        have : p = q.1 := eq_of_monic_of_associated hp2 (hl q hq).2.1 (hp1.associated_of_dvd (hl q hq).1 hpq)
        exact ⟨q, hq, this ▸ he⟩
    · unfold divisors1
      refine ((readArg_prints g1).then ((putLabel_prints several _ (hT.sh ha)).bind ((prints_lift e1).then
        ((prints_lift o1).then ?_)))).of_eq (List.append_assoc _ _ _).symm
      exact (prints_lift k1).then ((putSpaced_prints hT k2).bind (prints_out _))

theorem field_list {list : Int → Res (List (CPoly α))} {cs : List Char} {lo hi : Int} (h : IsRange cs lo hi) (h0 : 0 ≤ lo) (hhi : hi < INT_MAX)
    (hl : ∀ n : ℕ, lo ≤ n → (n : Int) ≤ hi → (list n).Ok fun r => (∃ L : List K[X], List.Forall₂ (PRep rep) r L ∧ L.Nodup ∧
      ∀ f, f ∈ L ↔ f ≠ 0 ∧ f.natDegree = n) ∧ r.Pairwise fun a b => CPoly.lt X.O a b = ok true) :
    ∃ L : List K[X], L.Pairwise (fun x y => key x < key y) ∧ (∀ f, f ∈ L ↔ f ≠ 0 ∧ lo ≤ f.natDegree ∧ (f.natDegree : Int) ≤ hi) ∧
      Prints (degrees (fun deg => do
        let elts ← lift (list deg)
        crout (fieldTool X read sh c1).sh elts) cs) (L.flatMap fun f => txt f ++ ['\n']) () := by
  have one : ∀ n : Int, lo ≤ n → n ≤ hi → ∃ L : List K[X], L.Pairwise (fun x y => key x < key y) ∧
      (∀ f, f ∈ L ↔ f ≠ 0 ∧ (f.natDegree : Int) = n) ∧
      Prints (lift (list n) >>= crout (fieldTool X read sh c1).sh) (L.flatMap fun f => txt f ++ ['\n']) () := by
    intro n h1 h2
    lift n to ℕ using by omega
    obtain ⟨r, e1, ⟨L, e2, -, e3⟩, e4⟩ := hl n h1 h2
    refine ⟨L, ?_, fun f => by rw [e3 f]; simp, (prints_lift e1).then (crout_prints hT e2)⟩
    rw [List.pairwise_iff_get] at e4 ⊢
    intro i j hij
    have hl := e2.length_eq
    have hi := (List.forall₂_iff_get.1 e2).2 i (by omega) i.2
    have hj := (List.forall₂_iff_get.1 e2).2 j (by omega) j.2
    have hlt := e4 ⟨i, by omega⟩ ⟨j, by omega⟩ hij
    obtain ⟨b, k1, k2⟩ := sat_false.1 (CPoly.lt_sat H.ref hi hj)
    rw [k1] at hlt
    exact H.dig.key_lt_key (k2.1 (Res.ok.inj hlt))
  choose! L k1 k2 k3 using one
  refine ⟨(List.range (hi - lo + 1).toNat).flatMap fun i : ℕ => L (lo + i), ?_, ?_, ?_⟩
  · rw [List.pairwise_flatMap]
    refine ⟨fun i hi => k1 _ (by omega) (by have := List.mem_range.1 hi; omega), List.pairwise_lt_range.imp_of_mem fun {i j} hi hj hij x hx y hy => ?_⟩
    have hi' := List.mem_range.1 hi
    have hj' := List.mem_range.1 hj
    have h1 := ((k2 (lo + i) (by omega) (by omega) x).1 hx).2
    have h2 := (k2 (lo + j) (by omega) (by omega) y).1 hy
    exact (H.dig.key_lt x).trans_le ((Nat.pow_le_pow_right Fintype.card_pos (by omega)).trans (H.dig.le_key h2.1))
  · intro f
    rw [List.mem_flatMap]
    constructor
    · rintro ⟨i, hi, hf⟩
      have hi' := List.mem_range.1 hi
      have := (k2 (lo + i) (by omega) (by omega) f).1 hf
      exact ⟨this.1, by omega, by omega⟩
    · rintro ⟨hf, h1, h2⟩
      exact ⟨(f.natDegree - lo).toNat, List.mem_range.2 (by omega), (k2 _ (by omega) (by omega) f).2 ⟨hf, by omega⟩⟩
  · refine (degrees_prints h hhi k3).of_eq ?_
    rw [List.flatMap_assoc]

end

end Spffl.Cmd
