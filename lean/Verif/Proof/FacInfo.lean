/-
Factor lists: refinement of the array model to finite multisets.
-/
import Verif.Model.FacInfo
import Verif.Base.Lists
import Mathlib.Algebra.BigOperators.Group.Multiset.Basic
import Mathlib.Algebra.Ring.Basic
import Mathlib.Data.Nat.Size
import Mathlib.Tactic.Ring
import Mathlib.Tactic.Abel

set_option linter.unusedSectionVars false

namespace Spffl
open Res

/-- What tfacinfo's algorithms need of the element type: the operators compute in a commutative ring `R`
on represented elements, products as long as the result stays in the domain `D` (for `int`: no overflow),
and `<` is a strict total order given by an injective key. -/
structure FacRef {α R K : Type} [CommRing R] [LinearOrder K] (O : EltOps α) (rep : α → R → Prop)
    (D : R → Prop) (key : R → K) : Prop where
  eq_ok : ∀ {a b x y}, rep a x → rep b y → (O.eq a b).Ok (fun r => r = true ↔ x = y)
  lt_ok : ∀ {a b x y}, rep a x → rep b y → (O.lt a b).Ok (fun r => r = true ↔ key x < key y)
  key_inj : Function.Injective key
  mul_ok : ∀ {a b x y}, rep a x → rep b y → D (x * y) → (O.mul a b).Ok (fun r => rep r (x * y))
  sub_self : ∀ {a x}, rep a x → (O.sub a a).Ok (fun r => rep r 0)
  div_self : ∀ {a x}, rep a x → x ≠ 0 → (O.div a a).Ok (fun r => rep r 1)
  D_dvd : ∀ {x y}, D y → x ∣ y → D x

namespace FacInfo
section
variable {α R K : Type} [CommRing R] [LinearOrder K] {O : EltOps α} {rep : α → R → Prop}
  {D : R → Prop} {key : R → K}

/-- A stored entry denotes a factor with multiplicity. -/
def PRel (rep : α → R → Prop) (p : α × Int) (q : R × ℕ) : Prop :=
  rep p.1 q.1 ∧ p.2 = ((q.2 : ℕ) : Int)

/-- The stored array denotes the list `l` of (factor, multiplicity) and the unit `u`. -/
def Den (rep : α → R → Prop) (f : FacInfo α) (l : List (R × ℕ)) (u : Option R) : Prop :=
  List.Forall₂ (PRel rep) f.facs l ∧ Option.Rel rep f.unit u

/-- The multiset of factors, with multiplicity. -/
def toMs (l : List (R × ℕ)) : Multiset R := (l.map fun q => Multiset.replicate q.2 q.1).sum

/-- Strictly increasing factors. -/
def Sorted (key : R → K) (l : List (R × ℕ)) : Prop := l.Pairwise fun p q => key p.1 < key q.1

open Classical in
/-- Abstract insertion. -/
noncomputable def insA (key : R → K) (e : R) (k : ℕ) : List (R × ℕ) → List (R × ℕ)
  | [] => [(e, k)]
  | q :: l => if e = q.1 then (q.1, q.2 + k) :: l
    else if key e < key q.1 then (e, k) :: q :: l
    else q :: insA key e k l

theorem toMs_insA (e : R) (k : ℕ) : ∀ l, toMs (insA key e k l) = Multiset.replicate k e + toMs l
  | [] => by simp [insA, toMs]
  | q :: l => by
    unfold insA
    split
    · rename_i h; subst h
      simp [toMs, Multiset.replicate_add]; abel
    · split
      · simp [toMs]
      · have := toMs_insA e k l
        simp only [toMs, List.map_cons, List.sum_cons] at this ⊢
        rw [this]; abel

theorem mem_insA (e : R) (k : ℕ) : ∀ l q, q ∈ insA key e k l → q.1 = e ∨ ∃ q' ∈ l, q'.1 = q.1
  | [], q, h => by simp [insA] at h; simp [h]
  | p :: l, q, h => by
    unfold insA at h
    split at h
    · rcases List.mem_cons.mp h with rfl | h
      · exact Or.inr ⟨p, by simp⟩
      · exact Or.inr ⟨q, by simp [h]⟩
    · split at h
      · rcases List.mem_cons.mp h with rfl | h
        · exact Or.inl rfl
        · exact Or.inr ⟨q, h, rfl⟩
      · rcases List.mem_cons.mp h with rfl | h
        · exact Or.inr ⟨q, by simp⟩
        · rcases mem_insA e k l q h with h | ⟨q', h1, h2⟩
          · exact Or.inl h
          · exact Or.inr ⟨q', by simp [h1], h2⟩

theorem insA_pos (e : R) (k : ℕ) (hk : 0 < k) : ∀ l : List (R × ℕ), (∀ q ∈ l, 0 < q.2) →
    ∀ q ∈ insA key e k l, 0 < q.2
  | [], _, q, h => by simp [insA] at h; subst h; exact hk
  | p :: l, hl, q, h => by
    have hp := hl p (by simp)
    have hl' : ∀ q ∈ l, 0 < q.2 := fun q hq => hl q (by simp [hq])
    unfold insA at h
    split at h
    · rcases List.mem_cons.mp h with rfl | h
      · simp; omega
      · exact hl' q h
    · split at h
      · rcases List.mem_cons.mp h with rfl | h
        · exact hk
        · exact hl q h
      · rcases List.mem_cons.mp h with rfl | h
        · exact hp
        · exact insA_pos e k hk l hl' q h

theorem sorted_insA (hinj : Function.Injective key) (e : R) (k : ℕ) : ∀ l, Sorted key l →
    Sorted key (insA key e k l)
  | [], _ => by simp [insA, Sorted]
  | p :: l, h => by
    unfold Sorted at h ⊢
    rw [List.pairwise_cons] at h
    unfold insA
    split
    · rw [List.pairwise_cons]; exact h
    · rename_i hne
      split
      · rename_i hlt
        rw [List.pairwise_cons, List.pairwise_cons]
        refine ⟨?_, h⟩
        intro q hq
        rcases List.mem_cons.mp hq with rfl | hq
        · exact hlt
        · exact hlt.trans (h.1 q hq)
      · rename_i hnlt
        rw [List.pairwise_cons]
        refine ⟨?_, sorted_insA hinj e k l h.2⟩
        intro q hq
        rcases mem_insA e k l q hq with h1 | ⟨q', h1, h2⟩
        · rw [h1]
          exact lt_of_le_of_ne (not_lt.mp hnlt) fun hh => hne (hinj hh.symm)
        · rw [← h2]; exact h.1 q' h1

theorem find_ok (H : FacRef O rep D key) {a : α} {e : R} (ha : rep a e) (k : ℕ) :
    ∀ (facs : List (α × Int)) (l : List (R × ℕ)) (i : Nat),
    List.Forall₂ (PRel rep) facs l →
    (find O a facs i).Ok (fun r => ∃ j, r.2 = i + j ∧
      (r.1 = true → ∃ (h : j < facs.length) (h' : j < l.length),
        (l[j]).1 = e ∧ insA key e k l = l.set j ((l[j]).1, (l[j]).2 + k)) ∧
      (r.1 = false → insA key e k l = l.insertIdx j (e, k)))
  | [], [], i, _ => by simp [find, insA]
  | p :: facs, q :: l, i, h => by
    cases h with
    | cons h1 h2 =>
    unfold find insA
    refine (H.eq_ok ha h1.1).bind fun b hb => ?_
    split
    · rename_i hbt
      have he := hb.mp hbt
      simp only [Ok_ok, if_pos he]
      refine ⟨0, rfl, fun _ => ⟨by simp, by simp, ?_⟩, by simp⟩
      simp [he]
    · rename_i hbf
      have he : ¬ e = q.1 := fun h => hbf (hb.mpr h)
      simp only [if_neg he]
      refine (H.lt_ok ha h1.1).bind fun c hc => ?_
      split
      · rename_i hct
        simp only [Ok_ok, if_pos (hc.mp hct)]
        exact ⟨0, rfl, by simp, by simp⟩
      · rename_i hcf
        rw [if_neg (fun h => hcf (hc.mpr h))]
        refine (find_ok H ha k facs l (i + 1) h2).mono fun r ⟨j, hj, ht, hf⟩ => ?_
        refine ⟨j + 1, by omega, fun hr => ?_, fun hr => ?_⟩
        · obtain ⟨g1, g2, g3, g4⟩ := ht hr
          refine ⟨by simpa using g1, by simpa using g2, by simpa using g3, ?_⟩
          simp [g4]
        · simp [hf hr]

theorem le_card_toMs {l : List (R × ℕ)} {q : R × ℕ} (h : q ∈ l) : q.2 ≤ (toMs l).card := by
  induction l with
  | nil => simp at h
  | cons p l ih =>
    simp only [toMs, List.map_cons, List.sum_cons, Multiset.card_add, Multiset.card_replicate] at ih ⊢
    rcases List.mem_cons.mp h with rfl | h
    · omega
    · have := ih h; omega

theorem insert_factor_ok (H : FacRef O rep D key) {f : FacInfo α} {l : List (R × ℕ)} {u : Option R}
    (hf : Den rep f l u) {a : α} {e : R} (ha : rep a e) (k : ℕ)
    (hcard : ((toMs l).card : Int) + k ≤ INT_MAX) :
    (insert_factor O f a k).Ok (fun f' => Den rep f' (insA key e k l) u) := by
  unfold insert_factor
  refine (find_ok H ha k f.facs l 0 hf.1).bind fun r ⟨j, hj, ht, hff⟩ => ?_
  have hj : r.2 = j := by omega
  rw [hj]
  split
  · rename_i hr
    obtain ⟨h1, h2, h3, h4⟩ := ht hr
    have hP := forall₂_getElem hf.1 j h1 h2
    have hle := le_card_toMs (List.getElem_mem h2)
    have hin : InInt (f.facs[j].2 + k) := by
      rw [hP.2]; unfold InInt; unfold INT_MAX at hcard; omega
    simp only [rd_ok h1, ok_bind, iadd, chk_ok hin, Ok_ok]
    refine ⟨?_, hf.2⟩
    show List.Forall₂ _ (f.facs.set j _) _
    rw [h4]
    exact forall₂_set hf.1 ⟨hP.1, by rw [hP.2]; push_cast; rfl⟩
  · rename_i hr
    simp only [Ok_ok]
    refine ⟨?_, hf.2⟩
    show List.Forall₂ _ (f.facs.insertIdx j _) _
    rw [hff (by simpa using hr)]
    exact forall₂_insertIdx hf.1 ⟨ha, rfl⟩

theorem den_empty : Den rep (empty : FacInfo α) [] none := by
  constructor
  · exact List.Forall₂.nil
  · exact Option.Rel.none

/-- What any sequence of insertions preserves. -/
def MsDen (rep : α → R → Prop) (key : R → K) (f : FacInfo α) (M : Multiset R) (u : Option R) : Prop :=
  ∃ l, Den rep f l u ∧ Sorted key l ∧ toMs l = M

theorem msden_insert (H : FacRef O rep D key) {f : FacInfo α} {M : Multiset R} {u : Option R}
    (hf : MsDen rep key f M u) {a : α} {e : R} (ha : rep a e) (k : ℕ)
    (hcard : (M.card : Int) + k ≤ INT_MAX) :
    (insert_factor O f a k).Ok (fun f' => MsDen rep key f' (M + Multiset.replicate k e) u) := by
  obtain ⟨l, hl, hs, rfl⟩ := hf
  refine (insert_factor_ok H hl ha k hcard).mono fun f' hf' => ?_
  exact ⟨_, hf', sorted_insA H.key_inj e k l hs, by rw [toMs_insA]; abel⟩

theorem msden_merge_factors (H : FacRef O rep D key) :
    ∀ (g : List (α × Int)) (l : List (R × ℕ)) (f : FacInfo α) (M : Multiset R) (u : Option R),
    MsDen rep key f M u →
    List.Forall₂ (PRel rep) g l →
    (M.card : Int) + (toMs l).card ≤ INT_MAX →
    (merge_factors O f g).Ok (fun f' => MsDen rep key f' (M + toMs l) u)
  | [], [], f, M, u, hf, _, _ => by simpa [merge_factors, toMs] using hf
  | p :: g, q :: l, f, M, u, hf, hg, hc => by
    cases hg with
    | cons h1 h2 =>
    have hms : toMs (q :: l) = Multiset.replicate q.2 q.1 + toMs l := by simp [toMs]
    rw [hms] at hc ⊢
    simp only [Multiset.card_add, Multiset.card_replicate, Nat.cast_add] at hc
    unfold merge_factors
    rw [List.foldlM_cons, h1.2]
    refine (msden_insert H hf h1.1 q.2 (by omega)).bind fun f' hf' => ?_
    have := msden_merge_factors H g l f' _ u hf' h2 (by simp; omega)
    rw [← add_assoc]; exact this

theorem option_rel_some {a : α} {u : Option R} (h : Option.Rel rep (some a) u) :
    ∃ x, u = some x ∧ rep a x := by
  cases h with
  | some h => exact ⟨_, rfl, h⟩

theorem option_rel_none {u : Option R} (h : Option.Rel rep none u) : u = none := by
  cases h; rfl

/-- Product of two optional units. -/
def uMul : Option R → Option R → Option R
  | none, v => v
  | some u, none => some u
  | some u, some v => some (u * v)

theorem msden_merge (H : FacRef O rep D key) {f g : FacInfo α} {M N : Multiset R} {u v : Option R}
    (hf : MsDen rep key f M u) (hg : MsDen rep key g N v)
    (hc : (M.card : Int) + N.card ≤ INT_MAX) (hD : ∀ x, uMul u v = some x → D x) :
    (merge O f g).Ok (fun f' => MsDen rep key f' (M + N) (uMul u v)) := by
  obtain ⟨l, hl, -, rfl⟩ := hg
  unfold merge
  refine (msden_merge_factors H g.facs l f M u hf hl.1 hc).bind fun f' hf' => ?_
  obtain ⟨l', hl', hs', hM'⟩ := hf'
  have hgu := hl.2
  have hfu := hl'.2
  generalize hgu' : g.unit = gu at hgu ⊢
  cases gu with
  | none =>
    have := option_rel_none hgu; subst this
    simp only [Ok_ok]
    refine ⟨l', ?_, hs', hM'⟩
    cases u <;> simpa [uMul] using hl'
  | some b =>
    obtain ⟨y, rfl, hy⟩ := option_rel_some hgu
    generalize hfu' : f'.unit = fu at hfu ⊢
    cases fu with
    | none =>
      have := option_rel_none hfu; subst this
      simp only [Ok_ok]
      exact ⟨l', ⟨hl'.1, Option.Rel.some hy⟩, hs', hM'⟩
    | some a =>
      obtain ⟨x, rfl, hx⟩ := option_rel_some hfu
      refine (H.mul_ok hx hy (hD _ rfl)).bind fun r hr => ?_
      simp only [Ok_ok]
      exact ⟨l', ⟨hl'.1, Option.Rel.some hr⟩, hs', hM'⟩

theorem insert_unit_ok (H : FacRef O rep D key) {f : FacInfo α} {M : Multiset R} {u : Option R}
    (hf : MsDen rep key f M u) {a : α} {e : R} (ha : rep a e)
    (hD : ∀ x, uMul u (some e) = some x → D x) :
    (insert_unit O f a).Ok (fun f' => MsDen rep key f' M (uMul u (some e))) := by
  obtain ⟨l', hl', hs', hM'⟩ := hf
  have hfu := hl'.2
  unfold insert_unit
  generalize hfu' : f.unit = fu at hfu ⊢
  cases fu with
  | none =>
    have := option_rel_none hfu; subst this
    simp only [Ok_ok]
    exact ⟨l', ⟨hl'.1, Option.Rel.some ha⟩, hs', hM'⟩
  | some a =>
    obtain ⟨x, rfl, hx⟩ := option_rel_some hfu
    refine (H.mul_ok hx ha (hD _ rfl)).bind fun r hr => ?_
    simp only [Ok_ok]
    exact ⟨l', ⟨hl'.1, Option.Rel.some hr⟩, hs', hM'⟩

/-- Square-and-multiply: only squarings up to the bit length of the exponent occur. -/
theorem sqMulLoop_ok {α R : Type} [CommMonoid R] {mul : α → α → Res α} {rep : α → R → Prop}
    {D : R → Prop} (hmul : ∀ {a b x y}, rep a x → rep b y → D (x * y) → (mul a b).Ok (fun r => rep r (x * y)))
    (hD : ∀ {x y : R}, D y → x ∣ y → D x) :
    ∀ (k : Nat) (rv xp : α) (x z : R) (e : Nat), e < 2 ^ k → rep rv z → rep xp x →
      D (z * x ^ e) → D (x ^ 2 ^ (Nat.size e)) →
      (sqMulLoop mul k rv xp e).Ok (fun r => rep r (z * x ^ e))
  | 0, rv, xp, x, z, e, he, hz, hx, _, _ => by
    have : e = 0 := by simpa using he
    subst this; simpa [sqMulLoop] using hz
  | k + 1, rv, xp, x, z, e, he, hz, hx, h1, h2 => by
    unfold sqMulLoop
    split
    · rename_i h; subst h; simpa using hz
    · rename_i hne
      have hsz : Nat.size e = Nat.size (e / 2) + 1 := by
        rcases Nat.even_or_odd' e with ⟨c, hc | hc⟩
        · have : e / 2 = c := by omega
          rw [this, hc]
          have hc0 : c ≠ 0 := by omega
          have := Nat.size_bit (b := false) (n := c) (by simp [Nat.bit]; omega)
          simpa [Nat.bit] using this
        · have : e / 2 = c := by omega
          rw [this, hc]
          have := Nat.size_bit (b := true) (n := c) (by simp [Nat.bit])
          simpa [Nat.bit] using this
      have he2 : e % 2 + 2 * (e / 2) = e := Nat.mod_add_div e 2
      have hsplit : z * x ^ e = (z * x ^ (e % 2)) * (x * x) ^ (e / 2) := by
        rw [← pow_two, ← pow_mul, mul_assoc, ← pow_add, he2]
      have hstep : (sqMulLoop.step mul rv xp e).Ok (fun r => rep r (z * x ^ (e % 2))) := by
        unfold sqMulLoop.step
        split
        · rename_i ho
          rw [ho, pow_one]
          refine hmul hz hx (hD h1 ?_)
          rw [hsplit, ho, pow_one]; exact Dvd.intro _ rfl
        · have : e % 2 = 0 := by omega
          simpa [this] using hz
      refine hstep.bind fun rv' hrv' => ?_
      have hpow : x ^ 2 ^ (Nat.size e) = (x * x) ^ 2 ^ Nat.size (e / 2) := by
        rw [hsz, ← pow_two, ← pow_mul]; congr 1; rw [pow_succ]; ring
      have hxx : D (x * x) := by
        refine hD h2 ?_
        rw [hpow]
        exact dvd_pow_self _ (by positivity)
      refine (hmul hx hx hxx).bind fun xp' hxp' => ?_
      rw [hsplit]
      exact sqMulLoop_ok hmul hD k rv' xp' (x * x) _ (e / 2) (by omega) hrv' hxp'
        (by rw [← hsplit]; exact h1) (by rw [← hpow]; exact h2)

theorem tf_exp_ok (H : FacRef O rep D key) {a : α} {x : R} (ha : rep a x) (hx : x ≠ 0) {e : ℕ}
    (he : (e : Int) ≤ INT_MAX) (h1 : D (x ^ e)) (h2 : D (x ^ 2 ^ (Nat.size e))) :
    (tf_exp O a e).Ok (fun r => rep r (x ^ e)) := by
  unfold tf_exp
  refine (H.sub_self ha).bind fun z hz => ?_
  refine (H.eq_ok ha hz).bind fun b hb => ?_
  rw [if_neg (fun h => hx (hb.mp h))]
  refine (H.div_self ha hx).bind fun one hone => ?_
  unfold tf_exp_nz
  split
  · rename_i h0
    have : e = 0 := by exact_mod_cast h0
    subst this; simpa using hone
  · rw [if_neg (by omega)]
    have hu : toU32 e = e := by
      unfold toU32 INT_MAX at *; rw [Int.emod_eq_of_lt (by omega) (by omega)]; simp
    rw [hu]
    have := sqMulLoop_ok H.mul_ok H.D_dvd 32 one a x 1 e (by unfold INT_MAX at he; omega) hone ha
      (by rwa [one_mul]) h2
    simpa using this

theorem tf_exp_zero (H : FacRef O rep D key) {a : α} (ha : rep a (0 : R)) {e : ℕ} :
    if e = 0 then tf_exp O a e = throw else (tf_exp O a e).Ok (fun r => rep r 0) := by
  unfold tf_exp
  obtain ⟨z, hz, hzr⟩ := H.sub_self ha
  obtain ⟨b, hb, hbr⟩ := H.eq_ok ha hzr
  have hbt : b = true := hbr.mpr rfl
  rw [hz, ok_bind, hb, ok_bind, hbt]
  split
  · rename_i h; subst h; simp
  · rename_i h
    rw [if_pos rfl, if_neg (by omega), if_neg (by omega)]
    simpa using hzr

theorem mapM_imul_ok : ∀ (g : List (α × Int)) (l : List (R × ℕ)) (k : ℕ),
    List.Forall₂ (PRel rep) g l →
    (∀ q ∈ l, ((q.2 * k : ℕ) : Int) ≤ INT_MAX) →
    (g.mapM (fun p : α × Int => do let c ← imul p.2 k; ok (p.1, c))).Ok (fun g' =>
      List.Forall₂ (PRel rep) g'
        (l.map fun q : R × ℕ => (q.1, q.2 * k)))
  | [], [], k, _, _ => by simp
  | p :: g, q :: l, k, h, hc => by
    cases h with
    | cons h1 h2 =>
    rw [List.mapM_cons]
    have hq := hc q (by simp)
    have hin : InInt (p.2 * k) := by
      rw [h1.2]; unfold InInt; unfold INT_MAX at hq; push_cast at hq
      constructor
      · have : (0:Int) ≤ (q.2 : Int) * (k : Int) := by positivity
        omega
      · exact hq
    simp only [imul, chk_ok hin, ok_bind]
    refine (mapM_imul_ok g l k h2 (fun q hq => hc q (by simp [hq]))).bind fun g' hg' => ?_
    simp only [pure_eq, Ok_ok, List.map_cons]
    exact List.Forall₂.cons ⟨h1.1, by rw [h1.2]; push_cast; rfl⟩ hg'

theorem toMs_map_mul (l : List (R × ℕ)) (k : ℕ) : toMs (l.map fun q => (q.1, q.2 * k)) = k • toMs l := by
  induction l with
  | nil => simp [toMs]
  | cons q l ih =>
    simp only [toMs, List.map_cons, List.sum_cons, List.map_map] at ih ⊢
    rw [ih, nsmul_add, mul_comm, Multiset.nsmul_replicate]

theorem msden_exp_all (H : FacRef O rep D key) {f : FacInfo α} {M : Multiset R} {u : Option R}
    (hf : MsDen rep key f M u) (k : ℕ) (hk' : (k : Int) ≤ INT_MAX)
    (hc : (k : Int) * M.card ≤ INT_MAX)
    (hu : ∀ x, u = some x → x ≠ 0 ∧ D (x ^ k) ∧ D (x ^ 2 ^ Nat.size k)) :
    (exp_all O f k).Ok (fun f' => MsDen rep key f' (k • M) (u.map (· ^ k))) := by
  obtain ⟨l, hl, hs, rfl⟩ := hf
  unfold exp_all
  have hunit : (exp_unit O f.unit k).Ok (fun v => Option.Rel rep v (u.map (· ^ k))) := by
    unfold exp_unit
    have hfu := hl.2
    generalize f.unit = fu at hfu ⊢
    cases fu with
    | none =>
      have := option_rel_none hfu; subst this
      simp only [Ok_ok]; exact Option.Rel.none
    | some a =>
      obtain ⟨x, rfl, hx⟩ := option_rel_some hfu
      obtain ⟨g1, g2, g3⟩ := hu x rfl
      refine (tf_exp_ok H hx g1 hk' g2 g3).bind fun r hr => ?_
      simp only [Ok_ok]; exact Option.Rel.some hr
  refine hunit.bind fun v hv => ?_
  refine (mapM_imul_ok f.facs l k hl.1 ?_).bind fun g hg => ?_
  · intro q hq
    have hle := le_card_toMs hq
    have h2 : ((q.2 * k : ℕ) : Int) ≤ (k : Int) * (toMs l).card := by
      rw [mul_comm]; push_cast
      exact mul_le_mul_of_nonneg_left (by exact_mod_cast hle) (by positivity)
    omega
  · simp only [Ok_ok]
    refine ⟨_, ⟨hg, hv⟩, ?_, toMs_map_mul l k⟩
    unfold Sorted at hs ⊢
    rw [List.pairwise_map]
    exact hs

/-- The product a factor list stands for. -/
def prodOf (M : Multiset R) (u : Option R) : R := u.getD 1 * M.prod

theorem toMs_prod (l : List (R × ℕ)) : (toMs l).prod = (l.map fun q => q.1 ^ q.2).prod := by
  induction l with
  | nil => simp [toMs]
  | cons q l ih =>
    simp only [toMs, List.map_cons, List.sum_cons, List.prod_cons, Multiset.prod_add] at ih ⊢
    rw [ih, Multiset.prod_replicate]

theorem fpower_ok (H : FacRef O rep D key) {one a : α} {x : R} (hone : rep one 1) (ha : rep a x)
    (k : ℕ) (hD : D (x ^ k)) : (fpower O one a k).Ok (fun r => rep r (x ^ k)) := by
  unfold fpower
  have := forUp_ok (σ := α) (body := fun _ fp => O.mul fp a) (lo := 1) (hi := k + 1) (s := one)
    (fun i r => rep r (x ^ (i - 1))) (by omega) (by simpa using hone) (by
      intro i s h1 h2 hs
      have hi : x ^ (i + 1 - 1) = x ^ (i - 1) * x := by
        rw [← pow_succ]; congr 1; omega
      simp only [hi]
      refine H.mul_ok hs ha (H.D_dvd hD ?_)
      rw [← pow_succ]
      exact pow_dvd_pow x (by omega))
  simpa using this

theorem unfactor_loop_ok (H : FacRef O rep D key) {one : α} (hone : rep one 1) :
    ∀ (g : List (α × Int)) (l : List (R × ℕ)) (rv : α) (z : R), rep rv z →
    List.Forall₂ (PRel rep) g l →
    D (z * (toMs l).prod) →
    (g.foldlM (fun rv (p : α × Int) => do
      let fp ← fpower O one p.1 p.2
      O.mul rv fp) rv).Ok (fun r => rep r (z * (toMs l).prod))
  | [], [], rv, z, hz, _, _ => by simpa [toMs] using hz
  | p :: g, q :: l, rv, z, hz, h, hD => by
    cases h with
    | cons h1 h2 =>
    have hms : (toMs (q :: l)).prod = q.1 ^ q.2 * (toMs l).prod := by
      rw [toMs_prod, toMs_prod]; simp
    rw [hms, ← mul_assoc] at hD ⊢
    rw [List.foldlM_cons, h1.2]
    have hD' : D (z * q.1 ^ q.2) := H.D_dvd hD (Dvd.intro _ rfl)
    refine Ok.bind (P := fun r => rep r (z * q.1 ^ q.2)) ?_ fun r hr => ?_
    · refine (fpower_ok H hone h1.1 q.2 (H.D_dvd hD' (Dvd.intro_left _ rfl))).bind fun fp hfp => ?_
      exact H.mul_ok hz hfp hD'
    · exact unfactor_loop_ok H hone g l r _ hr h2 hD

theorem unfactor_ok (H : FacRef O rep D key) {f : FacInfo α} {l : List (R × ℕ)} {u : Option R}
    (hf : Den rep f l u) {one : α} (hone : rep one 1) (hD : D (prodOf (toMs l) u)) :
    (unfactor O f one).Ok (fun r => rep r (prodOf (toMs l) u)) := by
  have hl := hf
  unfold unfactor
  have hunit : (unfactor_unit O f.unit one).Ok (fun r => rep r (u.getD 1)) := by
    unfold unfactor_unit
    have hfu := hl.2
    generalize f.unit = fu at hfu ⊢
    cases fu with
    | none =>
      have := option_rel_none hfu; subst this
      simpa using hone
    | some a =>
      obtain ⟨x, rfl, hx⟩ := option_rel_some hfu
      have := H.mul_ok hone hx (H.D_dvd hD (by simp [prodOf]))
      simpa using this
  refine hunit.bind fun rv hrv => ?_
  exact unfactor_loop_ok H hone f.facs l rv _ hrv hl.1 hD

theorem insertSorted_ok (H : FacRef O rep D key) {a : α} {x : R} (ha : rep a x) :
    ∀ (as : List α) (xs : List R), List.Forall₂ rep as xs → xs.Pairwise (fun x y => key x ≤ key y) →
    (insertSorted O a as).Ok (fun as' => ∃ xs', List.Forall₂ rep as' xs' ∧
      xs'.Pairwise (fun x y => key x ≤ key y) ∧ xs'.Perm (x :: xs))
  | [], [], _, _ => by
    simp only [insertSorted, Ok_ok]
    exact ⟨[x], List.Forall₂.cons ha List.Forall₂.nil, by simp, List.Perm.refl _⟩
  | b :: as, y :: xs, h, hs => by
    cases h with
    | cons h1 h2 =>
    rw [List.pairwise_cons] at hs
    unfold insertSorted
    refine (H.lt_ok h1 ha).bind fun c hc => ?_
    split
    · rename_i hct
      have hlt := hc.mp hct
      refine (insertSorted_ok H ha as xs h2 hs.2).bind fun as' ⟨xs', g1, g2, g3⟩ => ?_
      simp only [Ok_ok]
      refine ⟨y :: xs', List.Forall₂.cons h1 g1, ?_, ?_⟩
      · rw [List.pairwise_cons]
        refine ⟨fun z hz => ?_, g2⟩
        rcases List.mem_cons.mp (g3.subset hz) with rfl | hz
        · exact hlt.le
        · exact hs.1 z hz
      · exact (List.Perm.cons y g3).trans (List.Perm.swap x y xs)
    · rename_i hcf
      have hle := not_lt.mp (fun h => hcf (hc.mpr h))
      simp only [Ok_ok]
      refine ⟨x :: y :: xs, List.Forall₂.cons ha (List.Forall₂.cons h1 h2), ?_, List.Perm.refl _⟩
      rw [List.pairwise_cons, List.pairwise_cons]
      refine ⟨fun z hz => ?_, hs⟩
      rcases List.mem_cons.mp hz with rfl | hz
      · exact hle
      · exact hle.trans (hs.1 z hz)

theorem sortList_ok (H : FacRef O rep D key) : ∀ (as : List α) (xs : List R), List.Forall₂ rep as xs →
    (sortList O as).Ok (fun as' => ∃ xs', List.Forall₂ rep as' xs' ∧
      xs'.Pairwise (fun x y => key x ≤ key y) ∧ xs'.Perm xs)
  | [], [], _ => by
    simp only [sortList, List.foldrM_nil, pure_eq, Ok_ok]
    exact ⟨[], List.Forall₂.nil, List.Pairwise.nil, List.Perm.refl _⟩
  | a :: as, x :: xs, h => by
    cases h with
    | cons h1 h2 =>
    unfold sortList
    rw [List.foldrM_cons]
    refine (sortList_ok H as xs h2).bind fun as' ⟨xs', g1, g2, g3⟩ => ?_
    refine (insertSorted_ok H h1 as' xs' g1 g2).mono fun as'' ⟨xs'', k1, k2, k3⟩ => ?_
    exact ⟨xs'', k1, k2, k3.trans (List.Perm.cons x g3)⟩

end
end FacInfo
end Spffl
