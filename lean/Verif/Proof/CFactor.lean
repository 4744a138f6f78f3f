/-
Factorization of polynomials over a finite field, for the code shared by fp_poly_factor.cpp and
f2n_poly_factor.cpp.
-/
import Verif.Model.CFactor
import Verif.Base.Berlekamp
import Verif.Base.PolyKey
import Verif.Proof.FacPos
import Verif.Proof.Kernel
import Mathlib.FieldTheory.Separable

set_option linter.unusedSectionVars false

namespace Spffl
open Res Polynomial
open CPoly (PRep)

variable {α K : Type} [Field K] [Fintype K]

/-- The context refines the finite field `K` of characteristic `p`: coefficients denote field elements, the
polynomial order is that of the base-`#K` value, and the class-specific members do what their names say. -/
structure FRef (X : FCtx α) (rep : α → K → Prop) (kv : K → ℕ) (κ : ℕ → K) (p : ℕ) : Prop where
  ref : CoefRef False X.O rep (fun x y => kv x < kv y)
  dig : Digits (Fintype.card K) kv
  mulNat : ∀ {c x} {n : ℕ}, InInt n → rep c x → (X.O.mulNat c n).Sat False (fun r => rep r (x * (n : K)))
  isOne : ∀ {c x}, rep c x → (X.O.isInt c 1).Sat False (fun _ => True)
  q : ∀ {a f}, PRep rep a f → X.q a = ok (Fintype.card K : Int)
  cst : ∀ {a f}, PRep rep a f → ∀ c, c < Fintype.card K → (X.cst a c).Sat False (fun r => PRep rep r (C (κ c)))
  surj : ∀ y, ∃ c, c < Fintype.card K ∧ κ c = y
  root : ∀ {a f}, PRep rep a f → 0 < f.natDegree → derivative f = 0 →
    (X.root a).Sat False (fun r => ∃ s g, r = some s ∧ PRep rep s g ∧ g ^ p = f)
  rexp : ∀ {a f}, PRep rep a f → X.rexp a = ok (p : Int)
  frob : Function.Injective (fun x : K => x ^ p)
  one : kv 1 = 1
  incr : ∀ {a f}, PRep rep a f → (X.incr a).Sat False (fun r => ∃ g, PRep rep r g ∧
    polyKey (Fintype.card K) kv g = polyKey (Fintype.card K) kv f + 1)
  p2 : 2 ≤ p
  pmax : (p : Int) ≤ INT_MAX
  inv : ∃ z0, X.O.psub X.invalid 0 = ok z0 ∧ ∀ c, rep c 0 → X.O.eq c z0 = ok false

namespace CFac
variable {X : FCtx α} {rep : α → K → Prop} {kv : K → ℕ} {κ : ℕ → K} {p : ℕ} {n : ℕ}

theorem mod_eq_of {a b q r : K[X]} (h : a = q * b + r) (hr : r.degree < b.degree) : r = a % b := by
  have hb : b ≠ 0 := by rintro rfl; simp at hr
  refine eq_of_dvd_sub hr (EuclideanDomain.mod_lt _ hb) ?_
  have h1 := dvd_sub_mod a b
  have h2 : b ∣ a - r := ⟨q, by rw [h]; ring⟩
  have := dvd_sub h1 h2
  rwa [sub_sub_sub_cancel_left] at this

theorem mod_mod' (a b : K[X]) : a % b % b = a % b := by
  by_cases hb : b = 0
  · subst hb; simp
  · exact (Polynomial.mod_eq_self_iff hb).mpr (EuclideanDomain.mod_lt _ hb)

theorem div_eq_of {a b q r : K[X]} (h : a = q * b + r) (hr : r.degree < b.degree) : q = a / b := by
  have hb : b ≠ 0 := by rintro rfl; simp at hr
  have h1 := mod_eq_of h hr
  have h2 := EuclideanDomain.div_add_mod a b
  have : b * q = b * (a / b) := by linear_combination -h - h2 - h1
  exact mul_left_cancel₀ hb this

section ring
variable {ord : K → K → Prop} {O : CoefOps α}

theorem mod_sat (H : CoefRef False O rep ord) {a b : CPoly α} {f g : K[X]} (ha : PRep rep a f) (hb : PRep rep b g) (hg : g ≠ 0) :
    (CPoly.mod O a b).Sat False (fun r => PRep rep r (f % g)) := by
  unfold CPoly.mod
  refine (CPoly.quot_and_rem_sat H ha hb hg (CPoly.unit_lead hg)).bind fun s hs => ?_
  obtain ⟨q, r, h1, h2, h3, h4⟩ := hs
  rw [Sat_ok, ← mod_eq_of h3 h4]; exact h2

theorem div_sat (H : CoefRef False O rep ord) {a b : CPoly α} {f g : K[X]} (ha : PRep rep a f) (hb : PRep rep b g) (hg : g ≠ 0) :
    (CPoly.div O a b).Sat False (fun r => PRep rep r (f / g)) := by
  unfold CPoly.div
  refine (CPoly.quot_and_rem_sat H ha hb hg (CPoly.unit_lead hg)).bind fun s hs => ?_
  obtain ⟨q, r, h1, h2, h3, h4⟩ := hs
  rw [Sat_ok, ← div_eq_of h3 h4]; exact h1

end ring

theorem facRef (H : FRef X rep kv κ p) : FacRef (CPoly.ops X.O) (PRep rep) (fun _ => True) (polyKey (Fintype.card K) kv) where
  eq_ok ha hb := sat_false.mp (CPoly.eq_sat H.ref ha hb)
  lt_ok {a b x y} ha hb := (sat_false.mp (CPoly.lt_sat H.ref ha hb)).mono fun r hr => by
    rw [hr]
    constructor
    · exact fun h => H.dig.key_lt_key h
    · intro h
      rcases CPoly.polyLt_total H.ref x y with e | e | e
      · rw [e] at h; exact absurd h (lt_irrefl _)
      · exact e
      · exact absurd (H.dig.key_lt_key e) (by omega)
  key_inj := H.dig.key_inj
  mul_ok ha hb _ := sat_false.mp (CPoly.mul_sat H.ref ha hb)
  sub_self ha := (sat_false.mp (CPoly.sub_sat H.ref ha ha)).mono fun r hr => by rwa [_root_.sub_self] at hr
  div_self ha hx := (sat_false.mp (div_sat H.ref ha ha hx)).mono fun r hr => by rwa [EuclideanDomain.div_self hx] at hr
  D_dvd _ _ := trivial

theorem monic_sat (H : FRef X rep kv κ p) {a : CPoly α} {f : K[X]} (ha : PRep rep a f) (hf : f ≠ 0) :
    (monic X a).Sat False (fun r => PRep rep r (f * C f.leadingCoeff⁻¹)) := by
  unfold monic
  refine (CPoly.get_coeff_sat H.ref ha a.degree).bind fun c hc => ?_
  rw [← ha.deg, coeff_natDegree] at hc
  exact CPoly.sdiv_sat H.ref ha hc (mul_inv_cancel₀ (leadingCoeff_ne_zero.mpr hf))

theorem natDegree_monic {f : K[X]} (hf : f ≠ 0) : (f * C f.leadingCoeff⁻¹).natDegree = f.natDegree := by
  rw [natDegree_mul_C (inv_ne_zero (leadingCoeff_ne_zero.mpr hf))]

theorem one_pow_le_card (H : FRef X rep kv κ p) : 2 ≤ Fintype.card K := Fintype.one_lt_card

/-! ### the Berlekamp matrix -/

theorem powX_sat (H : FRef X rep kv κ p) {a x : CPoly α} {f : K[X]} (ha : PRep rep a f) (hf : f ≠ 0) (hx : PRep rep x Polynomial.X)
    {q : ℕ} (hq : 2 ≤ q) : (powX X a x q).Sat False (fun r => PRep rep r (Polynomial.X ^ q % f)) := by
  unfold powX
  rw [Int.toNat_natCast]
  refine (forUp_sat (fun i r => PRep rep r (if i = 1 then Polynomial.X else Polynomial.X ^ i % f)) (by omega) (by simpa using hx) ?_).mono
    fun r hr => by rwa [if_neg (by omega)] at hr
  intro i r hi1 hi2 hr
  refine (CPoly.mul_sat H.ref hr hx).bind fun t ht => (mod_sat H.ref ht ha hf).mono fun r hr => ?_
  rw [if_neg (by omega)]
  by_cases h1 : i = 1
  · subst h1; rw [if_pos rfl] at hr; rw [pow_two]; exact hr
  · rw [if_neg h1] at hr
    have : Polynomial.X ^ (i + 1) % f = (Polynomial.X ^ i % f * Polynomial.X) % f := by
      rw [pow_succ, Polynomial.mul_mod]
      conv_rhs => rw [Polynomial.mul_mod, mod_mod']
    rw [this]; exact hr

/-- entry of the matrix of `h ↦ h^q` -/
noncomputable def tEnt (q : ℕ) (f : K[X]) (n a b : ℕ) : K := (((Polynomial.X ^ q) ^ (n - 1 - b) : K[X]) % f).coeff (n - 1 - a)

theorem fillB_sat (H : FRef X rep kv κ p) {a xp xpi : CPoly α} {f : K[X]} (ha : PRep rep a f) (hf : f ≠ 0) (hn : f.natDegree = n) {q : ℕ}
    (hx : PRep rep xp (Polynomial.X ^ q % f)) (h1 : PRep rep xpi 1) (h2 : 2 ≤ n) {BI : TMat α} (hB : Shape BI n n) :
    (fillB X a xp xpi n BI).Sat False (fun s => Shape s.1 n n ∧ ∀ i j, i < n → j < n → At2 s.1 i j (fun e => rep e (tEnt q f n i j))) := by
  unfold fillB
  refine (forUp_sat (fun j s => (Shape s.1 n n ∧ ∀ i' j', i' < n → j' < n → n - 1 - j' < j → At2 s.1 i' j' (fun e => rep e (tEnt q f n i' j'))) ∧
    PRep rep s.2 ((Polynomial.X ^ q) ^ j % f)) (Nat.zero_le n) ⟨⟨hB, fun _ _ _ _ h => by omega⟩, ?_⟩ ?_).mono fun s hs => ?_
  · rw [pow_zero, (Polynomial.mod_eq_self_iff hf).mpr]
    · exact h1
    · rw [degree_one, degree_eq_natDegree hf, hn]
      exact_mod_cast (by omega : 0 < n)
  · rintro j ⟨BI, t⟩ _ hj ⟨⟨hS, hE⟩, ht⟩
    dsimp only at hS hE ht ⊢
    refine (forUp_sat (fun i BI => Shape BI n n ∧ ∀ i' j', i' < n → j' < n → (n - 1 - j' < j ∨ n - 1 - j' = j ∧ n - 1 - i' < i) →
      At2 BI i' j' (fun e => rep e (tEnt q f n i' j'))) (Nat.zero_le n) ⟨hS, fun i' j' h3 h4 h => hE i' j' h3 h4 (by omega)⟩ ?_).bind fun BI' hBI' => ?_
    · intro i BI _ hi ⟨hS, hE⟩
      refine (cput_sat hS (i := n - 1 - i) (j := n - 1 - j) (by omega) (by omega) (CPoly.get_coeff_sat H.ref ht i)).mono fun B hh => ?_
      obtain ⟨g1, g2, g3⟩ := hh
      refine ⟨g1, fun i' j' hi' hj' hc => ?_⟩
      by_cases hij : i' = n - 1 - i ∧ j' = n - 1 - j
      · obtain ⟨rfl, rfl⟩ := hij
        refine g2.mono fun e he => ?_
        unfold tEnt
        rw [show n - 1 - (n - 1 - j) = j by omega, show n - 1 - (n - 1 - i) = i by omega]
        exact he
      · exact (hE i' j' hi' hj' (by omega)).congr (g3 i' j' (by omega))
    · obtain ⟨hS', hE'⟩ := hBI'
      refine (CPoly.mul_sat H.ref ht hx).bind fun u hu => (mod_sat H.ref hu ha hf).bind fun w hw => ?_
      rw [Sat_ok]
      refine ⟨⟨hS', fun i' j' h3 h4 h => hE' i' j' h3 h4 (by omega)⟩, ?_⟩
      dsimp only
      rw [pow_succ (Polynomial.X ^ q) j, Polynomial.mul_mod]; exact hw
  · obtain ⟨⟨hS, hE⟩, -⟩ := hs
    exact ⟨hS, fun i j hi hj => hE i j hi hj (by omega)⟩

theorem subI_sat (H : FRef X rep kv κ p) {f : K[X]} {q : ℕ} {one : α} (h1 : rep one 1) {BI : TMat α} (hB : Shape BI n n)
    (hE : ∀ i j, i < n → j < n → At2 BI i j (fun e => rep e (tEnt q f n i j))) :
    (subI X one n BI).Sat False (fun B => MRep rep B (berMat q f n)) := by
  unfold subI
  refine (forUp_sat (fun i B => Shape B n n ∧ ∀ i' j', i' < n → j' < n →
    At2 B i' j' (fun e => rep e (tEnt q f n i' j' - if i' = j' ∧ i' < i then 1 else 0))) (Nat.zero_le n) ⟨hB, fun i' j' h h' => by simpa using hE i' j' h h'⟩ ?_).mono
    fun B hh => ?_
  · intro i B _ hi ⟨hS, hE⟩
    have hx := hE i i hi hi
    rw [if_neg (by omega), sub_zero] at hx
    refine (cput_sat (P := fun e => rep e (tEnt q f n i i - 1)) hS hi hi ?_).mono fun B' hh => ?_
    · exact (get_sat hx).bind fun x hx => H.ref.sub hx h1
    · obtain ⟨g1, g2, g3⟩ := hh
      refine ⟨g1, fun i' j' hi' hj' => ?_⟩
      by_cases hij : i' = i ∧ j' = i
      · obtain ⟨rfl, rfl⟩ := hij
        simpa using g2
      · have := (hE i' j' hi' hj').congr (g3 i' j' (by omega))
        by_cases hd : i' = j' ∧ i' < i
        · rw [if_pos hd] at this; rw [if_pos (by omega)]; exact this
        · rw [if_neg hd] at this; rw [if_neg (by omega)]; exact this
  · obtain ⟨hS, hE⟩ := hh
    refine MRep.of hS fun i j hi hj => (hE i j hi hj).mono fun e he => ?_
    have : berMat q f n ⟨i, hi⟩ ⟨j, hj⟩ = tEnt q f n i j - if i = j ∧ i < n then 1 else 0 := by
      unfold berMat tEnt
      simp [hi]
    rw [this]; exact he

theorem dflt_set_zero (H : FRef X rep kv κ p) {z : α} (hz : rep z 0) :
    (CPoly.set_coeff X.O (dfltPoly X) 0 z).Sat False (fun r => PRep rep r 0) := by
  obtain ⟨z0, h1, h2⟩ := H.inv
  have : CPoly.set_coeff X.O (dfltPoly X) 0 z = ok ⟨0, [z]⟩ := by
    unfold CPoly.set_coeff dfltPoly CPoly.set_coeff_in
    simp [rd, wr, h1, h2 z hz]
  rw [this, Sat_ok]
  refine ⟨by simp, fun i hi => ?_⟩
  have : i = 0 := by simp at hi; omega
  subst this
  exact ⟨z, rfl, by simpa using hz⟩

theorem from_vector_sat (H : FRef X rep kv κ p) {v : TVec α} {x : Fin n → K} (hn : 0 < n) (h : VRep rep v x) :
    (from_vector X v n).Sat False (fun r => PRep rep r (ofVec x)) := by
  unfold from_vector
  refine (vget_sat (h.at hn)).bind fun v0 hv0 => (H.ref.sub hv0 hv0).bind fun z hz => ?_
  rw [sub_self] at hz
  refine (dflt_set_zero H hz).bind fun f0 hf0 => ?_
  refine (forUp_sat (fun i r => ∃ g : K[X], PRep rep r g ∧ ∀ t, g.coeff t = if n ≤ t + i then (ofVec x).coeff t else 0) (Nat.zero_le n)
    ⟨0, hf0, fun t => ?_⟩ ?_).mono fun r hr => ?_
  · split
    · rw [coeff_zero, coeff_eq_zero_of_degree_lt ((degree_ofVec x).trans_le (by exact_mod_cast (by omega : n ≤ t)))]
    · rfl
  · intro i r _ hi ⟨g, hg, hgc⟩
    refine (vget_sat (h.at hi)).bind fun c hc => ?_
    refine (CPoly.set_coeff_sat H.ref hg (n - 1 - i) hc).mono fun r hr => ⟨_, hr, fun t => ?_⟩
    rw [coeff_update_apply]
    split
    · rename_i ht; subst ht
      rw [if_pos (by omega), coeff_ofVec x ⟨i, hi⟩]
    · rw [hgc]
      split <;> split <;> first | rfl | omega
  · obtain ⟨g, hg, hgc⟩ := hr
    have : g = ofVec x := by ext t; rw [hgc, if_pos (by omega)]
    rw [← this]; exact hg

/-! ### splitting by a kernel vector -/

/-- a proper divisor of `f` -/
def Splits (f g : K[X]) : Prop := g ∣ f ∧ 0 < g.natDegree ∧ g.natDegree < f.natDegree

theorem cLoop_sat (H : FRef X rep kv κ p) {a b : CPoly α} {f h : K[X]} (ha : PRep rep a f) (hb : PRep rep b h) :
    ∀ k c, c + k = Fintype.card K → (cLoop X a b k c).Sat False (fun r => match r with
      | some s => ∃ g, PRep rep s g ∧ Splits f g
      | none => ∀ c', c ≤ c' → c' < Fintype.card K → ∃ g, IsGcd g f (h - C (κ c')) ∧ ¬ (0 < g.natDegree ∧ g.natDegree < f.natDegree))
  | 0, c, hc => by unfold cLoop; rw [Sat_ok]; intro c' h1 h2; omega
  | k + 1, c, hc => by
    unfold cLoop
    refine (H.cst ha c (by omega)).bind fun kc hkc => (CPoly.sub_sat H.ref hb hkc).bind fun hc' hhc => ?_
    refine (CPoly.gcd_sat H.ref ha hhc).bind fun f1 hf1 => ?_
    obtain ⟨g, hg, hgcd⟩ := hf1
    split
    · rename_i hlt
      rw [Sat_ok]
      rw [← hg.deg, ← ha.deg] at hlt
      exact ⟨g, hg, hgcd.1, hlt.1, hlt.2⟩
    · rename_i hlt
      rw [← hg.deg, ← ha.deg] at hlt
      refine (cLoop_sat H ha hb k (c + 1) (by omega)).mono fun r hr => ?_
      cases r with
      | some s => exact hr
      | none =>
        intro c' h1 h2
        rcases Nat.lt_or_ge c c' with h3 | h3
        · exact hr c' h3 h2
        · obtain rfl : c = c' := by omega
          exact ⟨g, hgcd, hlt⟩

theorem rowLoop_sat (H : FRef X rep kv κ p) {a : CPoly α} {f : K[X]} (ha : PRep rep a f) (hn : f.natDegree = n) (hn0 : 0 < n)
    {d : ℕ} {basis : TMat α} {B : Matrix (Fin d) (Fin n) K} (hB : MRep rep basis B)
    (hker : ∀ i, f ∣ ofVec (B i) ^ Fintype.card K - ofVec (B i)) :
    ∀ k row, row + k = d → (rowLoop X a n (Fintype.card K : ℕ) basis k row).Sat False (fun r => match r with
      | some s => ∃ g, PRep rep s g ∧ Splits f g
      | none => ∀ i : Fin d, row ≤ i → (ofVec (B i)).natDegree = 0)
  | 0, row, hk => by unfold rowLoop; rw [Sat_ok]; intro i hi; have := i.2; omega
  | k + 1, row, hk => by
    have hrow : row < d := by omega
    unfold rowLoop
    obtain ⟨v, hv, hvr⟩ := (hB.rowRep hrow).rd
    rw [show TMat.row basis row = ok v by unfold TMat.row; rw [if_pos (by rw [hB.shape.nr]; exact hrow), hv], ok_bind]
    refine (from_vector_sat H hn0 hvr).bind fun h hh => ?_
    have hb : (CPoly.eqInt X.O h 1).Sat False (fun b => b = true → (ofVec (B ⟨row, hrow⟩)).natDegree = 0) := by
      unfold CPoly.eqInt
      split
      · simp
      · rename_i h0
        refine (rd_sat hh.c0).bind fun c hc => (H.isOne hc).mono fun b _ _ => ?_
        rw [hh.deg]; simpa using h0
    have next : ((ofVec (B ⟨row, hrow⟩)).natDegree = 0 → (rowLoop X a n (Fintype.card K : ℕ) basis k (row + 1)).Sat False (fun r => match r with
      | some s => ∃ g, PRep rep s g ∧ Splits f g
      | none => ∀ i : Fin d, row ≤ i → (ofVec (B i)).natDegree = 0)) := by
      intro h0
      refine (rowLoop_sat H ha hn hn0 hB hker k (row + 1) (by omega)).mono fun r hr => ?_
      cases r with
      | some s => exact hr
      | none =>
        intro i hi
        rcases Nat.lt_or_ge row i with h3 | h3
        · exact hr i h3
        · have : i = ⟨row, hrow⟩ := Fin.ext (by simp; omega)
          rw [this]; exact h0
    refine hb.bind fun b hb => ?_
    split
    · rename_i hbt; exact next (hb hbt)
    · rw [Int.toNat_natCast]
      refine (cLoop_sat H ha hh (Fintype.card K) 0 (by omega)).bind fun r hr => ?_
      cases r with
      | some s => exact hr
      | none =>
        refine next ?_
        by_contra hne
        have hlt : (ofVec (B ⟨row, hrow⟩)).natDegree < f.natDegree := by
          rw [hn]
          by_cases h0 : ofVec (B ⟨row, hrow⟩) = 0
          · rw [h0]; simpa using hn0
          · exact (natDegree_lt_iff_degree_lt h0).mpr (degree_ofVec _)
        obtain ⟨c, hc⟩ := exists_split (by omega) (by omega) hlt (hker ⟨row, hrow⟩)
        obtain ⟨c', hc1, rfl⟩ := H.surj c
        obtain ⟨g, hg, hno⟩ := hr c' (Nat.zero_le _) hc1
        exact hno (hc g hg)

/-! ### the recursion -/

/-- complete or partial factorization into monic factors -/
structure MOut (full : Bool) (f : K[X]) (N : Multiset K[X]) : Prop extends FactOut full f N where
  monic : ∀ g ∈ N, g.Monic

theorem MOut.mul {full : Bool} {f g : K[X]} {N N' : Multiset K[X]} (h : MOut full f N) (h' : MOut full g N')
    (hp : 0 < f.natDegree) (hq : 0 < g.natDegree) : MOut full (f * g) (N + N') :=
  ⟨h.toFactOut.mul h'.toFactOut hp hq, fun x hx => (Multiset.mem_add.mp hx).elim (h.monic x) (h'.monic x)⟩

theorem MOut.single {full : Bool} {f : K[X]} (hm : f.Monic) (h : Irreducible f) : MOut full f {f} :=
  ⟨FactOut.single h, fun x hx => by rw [Multiset.mem_singleton.mp hx]; exact hm⟩

theorem MOut.pair {f g : K[X]} (hf : f.Monic) (hg : g.Monic) (hp : 0 < f.natDegree) (hq : 0 < g.natDegree) :
    MOut false (f * g) ({f} + {g}) :=
  ⟨FactOut.pair hp hq, fun x hx => by
    rw [Multiset.mem_add, Multiset.mem_singleton, Multiset.mem_singleton] at hx
    rcases hx with rfl | rfl <;> assumption⟩

theorem MOut.pow {full : Bool} {f : K[X]} {N : Multiset K[X]} (h : MOut full f N) (k : ℕ) (hk : 2 ≤ k) : MOut full (f ^ k) (k • N) :=
  ⟨h.toFactOut.pow k hk, fun x hx => h.monic x (Multiset.mem_of_mem_nsmul hx)⟩

/-- the factor list denotes the multiset `M` and the unit `u` -/
abbrev Facs (rep : α → K → Prop) (kv : K → ℕ) (fi : FacInfo (CPoly α)) (M : Multiset K[X]) (u : Option K[X]) : Prop :=
  FacInfo.MsP (PRep rep) (polyKey (Fintype.card K) kv) fi M u

/-- what the recursion delivers on monic inputs of degree below `k` -/
def FSpec (rep : α → K → Prop) (kv : K → ℕ) (recurse : Bool) (k : ℕ) (run : CPoly α → FacInfo (CPoly α) → Res (FacInfo (CPoly α))) : Prop :=
  ∀ (a : CPoly α) (f : K[X]) (fi : FacInfo (CPoly α)) (M : Multiset K[X]) (u : Option K[X]), PRep rep a f → f.Monic → 0 < f.natDegree →
    f.natDegree < k → ((f.natDegree + M.card : ℕ) : Int) ≤ INT_MAX → Facs rep kv fi M u →
    (run a fi).Sat False (fun fi' => ∃ N, Facs rep kv fi' (M + N) u ∧ MOut recurse f N)

theorem insert_sat (H : FRef X rep kv κ p) {recurse : Bool} {a : CPoly α} {f : K[X]} {fi : FacInfo (CPoly α)} {M : Multiset K[X]} {u : Option K[X]}
    (ha : PRep rep a f) (hm : f.Monic) (hirr : Irreducible f) (hc : ((f.natDegree + M.card : ℕ) : Int) ≤ INT_MAX) (hM : Facs rep kv fi M u) :
    (FacInfo.insert_factor (CPoly.ops X.O) fi a 1).Sat False (fun fi' => ∃ N, Facs rep kv fi' (M + N) u ∧ MOut recurse f N) := by
  have := hirr.natDegree_pos
  exact ((FacInfo.msp_insert_one (facRef H) hM ha (by omega)).mono fun r hr => ⟨_, hr, MOut.single hm hirr⟩).sat

theorem insertSplit_sat (H : FRef X rep kv κ p) {recurse : Bool} {k : ℕ} {run : CPoly α → FacInfo (CPoly α) → Res (FacInfo (CPoly α))}
    (hrun : FSpec rep kv recurse k run) {dimker : ℕ} {a1 a2 : CPoly α} {f f1 f2 : K[X]} {fi : FacInfo (CPoly α)} {M : Multiset K[X]} {u : Option K[X]}
    (h1 : PRep rep a1 f1) (h2 : PRep rep a2 f2) (m1 : f1.Monic) (m2 : f2.Monic) (hs : Squarefree f) (hf : f = f1 * f2)
    (hd1 : 0 < f1.natDegree) (hd2 : 0 < f2.natDegree) (hk : f.natDegree ≤ k)
    (hdim : dimker = f.natDegree - (berMat (Fintype.card K) f f.natDegree).rank)
    (hc : ((f.natDegree + M.card : ℕ) : Int) ≤ INT_MAX) (hM : Facs rep kv fi M u) :
    (insertSplit X run recurse dimker a1 a2 fi).Sat False (fun fi' => ∃ N, Facs rep kv fi' (M + N) u ∧ MOut recurse f N) := by
  have hsum : f.natDegree = f1.natDegree + f2.natDegree := by rw [hf, natDegree_mul m1.ne_zero m2.ne_zero]
  have hpair : MOut recurse f ({f1} + {f2}) →
      ((do let fi ← FacInfo.insert_factor (CPoly.ops X.O) fi a1 1
           FacInfo.insert_factor (CPoly.ops X.O) fi a2 1) : Res (FacInfo (CPoly α))).Sat False
        (fun fi' => ∃ N, Facs rep kv fi' (M + N) u ∧ MOut recurse f N) := by
    intro hout
    refine ((FacInfo.msp_insert_one (facRef H) hM h1 (by omega)).bind fun r hr => ?_).sat
    refine (FacInfo.msp_insert_one (facRef H) hr h2 (by rw [Multiset.card_add, Multiset.card_singleton]; omega)).mono fun r' hr' => ⟨_, ?_, hout⟩
    rw [← add_assoc]; exact hr'
  unfold insertSplit
  split
  · rename_i hd
    have i1 : Irreducible f1 := irreducible_of_nullity_two hs hf hd1 hd2 (by omega)
    have i2 : Irreducible f2 := irreducible_of_nullity_two hs (hf.trans (mul_comm _ _)) hd2 hd1 (by omega)
    refine hpair ?_
    rw [hf]; exact (MOut.single m1 i1).mul (MOut.single m2 i2) hd1 hd2
  · split
    · rename_i hr
      obtain rfl : recurse = false := by simpa using hr
      refine hpair ?_
      rw [hf]; exact MOut.pair m1 m2 hd1 hd2
    · refine (hrun a1 f1 fi M u h1 m1 hd1 (by omega) (by omega) hM).bind fun fi1 hfi1 => ?_
      obtain ⟨N1, hN1, ho1⟩ := hfi1
      have hcard := ho1.card_le
      refine (hrun a2 f2 fi1 (M + N1) u h2 m2 hd2 (by omega) (by rw [Multiset.card_add]; omega) hN1).mono fun fi2 hfi2 => ?_
      obtain ⟨N2, hN2, ho2⟩ := hfi2
      refine ⟨N1 + N2, by rw [← add_assoc]; exact hN2, ?_⟩
      rw [hf]; exact ho1.mul ho2 hd1 hd2

theorem monic_mul_split {f g : K[X]} (hm : f.Monic) (hg : g ∣ f) :
    f = (g * C g.leadingCoeff⁻¹) * ((f / g) * C (f / g).leadingCoeff⁻¹) := by
  have hg0 : g ≠ 0 := fun h => hm.ne_zero (zero_dvd_iff.mp (h ▸ hg))
  have hfg : f = g * (f / g) := (EuclideanDomain.mul_div_cancel' hg0 hg).symm
  have hl : g.leadingCoeff * (f / g).leadingCoeff = 1 := by
    rw [← leadingCoeff_mul, ← hfg]; exact hm
  have : C g.leadingCoeff⁻¹ * C (f / g).leadingCoeff⁻¹ = (1 : K[X]) := by
    rw [← C_mul, ← mul_inv, hl, inv_one, C_1]
  calc f = g * (f / g) * 1 := by rw [mul_one]; exact hfg
    _ = _ := by rw [← this]; ring

theorem berlekamp_sat (H : FRef X rep kv κ p) {recurse : Bool} {k : ℕ} {run : CPoly α → FacInfo (CPoly α) → Res (FacInfo (CPoly α))}
    (hrun : FSpec rep kv recurse k run) {a : CPoly α} {f : K[X]} {fi : FacInfo (CPoly α)} {M : Multiset K[X]} {u : Option K[X]}
    (ha : PRep rep a f) (hm : f.Monic) (hs : Squarefree f) (hpos : 0 < f.natDegree) (hk : f.natDegree ≤ k)
    (hc : ((f.natDegree + M.card : ℕ) : Int) ≤ INT_MAX) (hM : Facs rep kv fi M u) :
    (berlekamp X run recurse a fi).Sat False (fun fi' => ∃ N, Facs rep kv fi' (M + N) u ∧ MOut recurse f N) := by
  have hf0 : f ≠ 0 := hs.ne_zero
  unfold berlekamp
  refine (rd_sat ha.c0).bind fun c0 hc0 => ?_
  rw [H.q ha, ok_bind]
  refine (H.ref.psub 0 (by decide) hc0).bind fun zero hzero => (H.ref.psub 1 (by decide) hc0).bind fun one hone => ?_
  rw [Int.cast_zero] at hzero; rw [Int.cast_one] at hone
  refine (CPoly.linear_sat H.ref hone hzero).bind fun x hx => ?_
  rw [C_1, C_0, one_mul, add_zero] at hx
  refine (CPoly.const_sat H.ref hone).bind fun xpi hxpi => ?_
  rw [C_1] at hxpi
  refine (powX_sat H ha hf0 hx (q := Fintype.card K) Fintype.one_lt_card).bind fun xp hxp => ?_
  rw [← ha.deg]
  generalize hn : f.natDegree = n at *
  refine (alloc_sat (m := n) (n := n) hpos hpos).bind fun A hA => ?_
  split
  · exact insert_sat H ha hm (irreducible_of_degree_eq_one (by rw [degree_eq_natDegree hf0, hn]; exact_mod_cast (by omega : n = 1)))
      (by rw [hn]; exact hc) hM
  · refine (fillB_sat H ha hf0 hn hxp hxpi (by omega) hA.1).bind fun s hs1 => ?_
    refine (subI_sat H hone hs1.1 hs1.2).bind fun B hB => ?_
    refine (ref_sat H.ref.elt hpos hpos hB).bind fun R hR => ?_
    obtain ⟨M', hR2, ⟨rk, pv, hred⟩, hRE⟩ := hR
    refine (rank_rr_sat H.ref.elt hpos hpos hR2 hred.toIsEchelon).bind fun rk' hrk' => ?_
    subst hrk'
    have hrank : (berMat (Fintype.card K) f n).rank = rk' := by rw [← hRE.rank, hred.toIsEchelon.rank_eq]
    have hrank' : M'.rank = rk' := hred.toIsEchelon.rank_eq
    have hge : 1 ≤ n - rk' := by
      have := le_nullity hf0 ![f] (fun i => by fin_cases i; simpa [hn] using hpos)
        (by intro i j hij; exact absurd (Subsingleton.elim i j) hij) (by simp)
      rw [hn, hrank] at this; exact this
    dsimp only
    split
    · rename_i h1
      refine insert_sat H ha hm ?_ (by rw [hn]; exact hc) hM
      subst hn
      exact irreducible_of_nullity_one hs hpos (by rw [hrank]; exact h1)
    · rename_i h1
      unfold splitByKernel
      refine (kernel_sat H.ref.elt H.ref.negRef hpos hpos hR2 hzero hone).bind fun got hgot => ?_
      cases got with
      | none =>
        exfalso
        have h2 := LinearMap.finrank_range_add_finrank_ker M'.mulVecLin
        rw [hgot, finrank_bot] at h2
        rw [Module.finrank_fin_fun, add_zero] at h2
        have : M'.rank = n := h2
        omega
      | some basis =>
        obtain ⟨d, hd, hd0, K', hK, hind, hspan⟩ := hgot
        rw [hrank'] at hd
        dsimp only
        rw [hK.shape.nr, if_neg (by rw [hd]; simp)]
        have hker : ∀ i, f ∣ ofVec (K' i) ^ Fintype.card K - ofVec (K' i) := by
          intro i
          have h3 : K' i ∈ LinearMap.ker M'.mulVecLin := by rw [← hspan]; exact Submodule.subset_span ⟨i, rfl⟩
          have h4 := (hRE.ker (K' i)).mp (by simpa using h3)
          exact (berMat_ker hf0 hn (K' i)).mp h4
        rw [← hd]
        unfold splitRows
        refine (rowLoop_sat H ha hn hpos hK hker d 0 (by omega)).bind fun got hgot => ?_
        cases got with
        | none =>
          obtain ⟨i, hi⟩ := exists_nonconst (by omega) hind
          exact absurd (hgot i (Nat.zero_le _)) (by omega)
        | some a1 =>
          obtain ⟨g, hg, hgd, hg1, hg2⟩ := hgot
          have hg0 : g ≠ 0 := by rintro rfl; simp at hg1
          dsimp only
          refine (div_sat H.ref ha hg hg0).bind fun a2 ha2 => ?_
          have hfg : f = g * (f / g) := (EuclideanDomain.mul_div_cancel' hg0 hgd).symm
          have hq0 : f / g ≠ 0 := right_ne_zero_of_mul (hfg ▸ hf0)
          have hsum : f.natDegree = g.natDegree + (f / g).natDegree := by
            conv_lhs => rw [hfg]
            exact natDegree_mul hg0 hq0
          refine (monic_sat H hg hg0).bind fun b1 hb1 => (monic_sat H ha2 hq0).bind fun b2 hb2 => ?_
          subst hn
          exact insertSplit_sat H hrun hb1 hb2 (monic_mul_leadingCoeff_inv hg0) (monic_mul_leadingCoeff_inv hq0) hs (monic_mul_split hm hgd)
            (by rw [natDegree_monic hg0]; exact hg1) (by rw [natDegree_monic hq0]; omega) hk (by rw [hrank]; exact hd) hc hM

theorem pre_berlekamp_spec (H : FRef X rep kv κ p) (recurse : Bool) : ∀ k, FSpec rep kv recurse k (pre_berlekamp X recurse k)
  | 0 => fun a f fi M u _ _ _ h => by omega
  | k + 1 => by
    intro a f fi M u ha hm hpos hk hc hM
    have ih := pre_berlekamp_spec H recurse k
    have hf0 : f ≠ 0 := hm.ne_zero
    unfold pre_berlekamp
    refine (CPoly.deriv_sat H.ref ha fun m hm hc' => H.mulNat (by have := ha.deg; unfold InInt; unfold INT_MAX at *; omega) hc').bind fun d hd => ?_
    refine (CPoly.gcd_sat H.ref ha hd).bind fun g hg => ?_
    obtain ⟨G, hg, hgcd⟩ := hg
    have hG0 : G ≠ 0 := fun h => hf0 (zero_dvd_iff.mp (h ▸ hgcd.1))
    refine (CPoly.eqInt_sat H.ref hg).bind fun z hz => ?_
    split
    · rename_i hzt; exact absurd (hz.mp hzt) hG0
    split
    · rename_i hg0
      have hsep : f.Separable := by
        rw [Polynomial.Separable, ← isRelPrime_iff_isCoprime]
        intro c hc1 hc2
        have hu : IsUnit G := by
          rw [eq_C_of_natDegree_eq_zero (hg.deg.trans hg0)] at hG0 ⊢
          exact isUnit_C.mpr (IsUnit.mk0 _ (by simpa using hG0))
        exact isUnit_of_dvd_unit (hgcd.2.2 c hc1 hc2) hu
      exact berlekamp_sat H ih ha hm hsep.squarefree hpos (by omega) hc hM
    · rename_i hg0
      have hGpos : 0 < G.natDegree := by rw [hg.deg]; omega
      refine (CPoly.eqInt_sat H.ref hd).bind fun z hz => ?_
      split
      · rename_i hzt
        unfold rootCase
        rw [H.rexp ha, ok_bind]
        refine (H.root ha hpos (hz.mp hzt)).bind fun s hs => ?_
        obtain ⟨s, G', rfl, hs, hsp⟩ := hs
        dsimp only
        have p2 := H.p2
        have hdeg : f.natDegree = p * G'.natDegree := by rw [← hsp, natDegree_pow]
        have hG'pos : 0 < G'.natDegree := Nat.pos_of_ne_zero fun h => by rw [h] at hdeg; omega
        have hlt : G'.natDegree < f.natDegree := by rw [hdeg]; nlinarith
        have hG'm : G'.Monic := by
          refine H.frob (?_ : G'.leadingCoeff ^ p = 1 ^ p)
          rw [← leadingCoeff_pow, hsp, one_pow]; exact hm
        refine (ih s G' FacInfo.empty 0 none hs hG'm hG'pos (by omega) (by rw [Multiset.card_zero]; omega) FacInfo.msp_empty).bind fun sfi hsfi => ?_
        obtain ⟨N, hN, hout⟩ := hsfi
        rw [zero_add] at hN
        have hcard := hout.card_le
        rw [← ha.deg, if_pos hpos]
        have hle : p * N.card ≤ f.natDegree := by rw [hdeg]; exact Nat.mul_le_mul_left _ hcard
        have hle' : ((p * N.card : ℕ) : Int) ≤ INT_MAX := by omega
        push_cast at hle'
        refine ((FacInfo.msp_exp_all (facRef H) hN (k := p) (by omega) H.pmax hle').bind fun sfi2 h2 => ?_).sat
        refine (FacInfo.msp_merge (facRef H) hM h2 (by rw [Multiset.card_nsmul]; omega)).mono fun r hr => ⟨p • N, hr, ?_⟩
        rw [← hsp]; exact hout.pow p p2
      · rename_i hzf
        have hd0 : derivative f ≠ 0 := fun h => hzf (hz.mpr h)
        refine (div_sat H.ref ha hg hG0).bind fun q hq => ?_
        have hfg : f = G * (f / G) := (EuclideanDomain.mul_div_cancel' hG0 hgcd.1).symm
        have hq0 : f / G ≠ 0 := right_ne_zero_of_mul (hfg ▸ hf0)
        have hsum : f.natDegree = G.natDegree + (f / G).natDegree := by
          conv_lhs => rw [hfg]
          exact natDegree_mul hG0 hq0
        have hglt : G.natDegree < f.natDegree := by
          have h1 := natDegree_le_of_dvd hgcd.2.1 hd0
          have h2 := natDegree_derivative_lt (p := f) (by omega)
          omega
        refine (monic_sat H hg hG0).bind fun b1 hb1 => (monic_sat H hq hq0).bind fun b2 hb2 => ?_
        have hsplit := monic_mul_split hm hgcd.1
        have e1 := natDegree_monic hG0
        have e2 := natDegree_monic hq0
        have mo1 := monic_mul_leadingCoeff_inv hG0
        have mo2 := monic_mul_leadingCoeff_inv hq0
        generalize G * C G.leadingCoeff⁻¹ = G1 at *
        generalize f / G * C (f / G).leadingCoeff⁻¹ = G2 at *
        refine (ih b1 G1 fi M u hb1 mo1 (by omega) (by omega) (by omega) hM).bind fun fi1 hfi1 => ?_
        obtain ⟨N1, hN1, ho1⟩ := hfi1
        have hcard := ho1.card_le
        refine (ih b2 G2 fi1 (M + N1) u hb2 mo2 (by omega) (by omega) (by rw [Multiset.card_add]; omega) hN1).mono fun fi2 hfi2 => ?_
        obtain ⟨N2, hN2, ho2⟩ := hfi2
        refine ⟨N1 + N2, by rw [← add_assoc]; exact hN2, ?_⟩
        rw [hsplit]; exact ho1.mul ho2 (by omega) (by omega)

end CFac
end Spffl
