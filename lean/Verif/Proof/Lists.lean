/-
list_elements.cpp: the loops that enumerate residues and polynomials by `increment`, and their instances.
-/
import Verif.Model.Lists
import Verif.Proof.UnitsF2
import Verif.Proof.UnitsF2n
import Verif.Proof.IntMod
import Verif.Proof.TMatrix

namespace Spffl
open Res Polynomial List
open CPoly (PRep)

namespace Lists

/-! ### the elements in a range of keys -/
section elems
variable {X : Type} (e : X ≃ ℕ) (P : X → Prop) [DecidablePred P]

/-- the elements with key in `[lo, hi)` that satisfy `P`, in ascending order of their keys -/
def elems (lo hi : ℕ) : List X := ((List.range' lo (hi - lo)).map e.symm).filter (fun x => decide (P x))

theorem elems_of_ge {lo hi : ℕ} (h : hi ≤ lo) : elems e P lo hi = [] := by
  unfold elems; rw [Nat.sub_eq_zero_of_le h]; rfl

theorem elems_of_lt {x : X} {hi : ℕ} (h : e x < hi) :
    elems e P (e x) hi = if P x then x :: elems e P (e x + 1) hi else elems e P (e x + 1) hi := by
  unfold elems
  rw [show hi - e x = (hi - (e x + 1)) + 1 by omega, List.range'_succ, List.map_cons, e.symm_apply_apply, List.filter_cons]
  simp

theorem mem_elems {lo hi : ℕ} {x : X} : x ∈ elems e P lo hi ↔ lo ≤ e x ∧ e x < hi ∧ P x := by
  unfold elems
  simp only [List.mem_filter, List.mem_map, List.mem_range'_1, decide_eq_true_eq]
  constructor
  · rintro ⟨⟨n, hn, rfl⟩, hp⟩
    rw [e.apply_symm_apply]
    exact ⟨hn.1, by omega, hp⟩
  · rintro ⟨h1, h2, h3⟩
    exact ⟨⟨e x, ⟨h1, by omega⟩, e.symm_apply_apply x⟩, h3⟩

theorem elems_pairwise (lo hi : ℕ) : (elems e P lo hi).Pairwise (fun x y => e x < e y) := by
  unfold elems
  refine List.Pairwise.filter _ ?_
  rw [List.pairwise_map]
  simp only [e.apply_symm_apply]
  exact List.pairwise_lt_range'

theorem nodup_of_key {L : List X} {key : X → ℕ} (h : L.Pairwise (fun x y => key x < key y)) : L.Nodup :=
  h.imp fun {a b} hab heq => by rw [heq] at hab; exact lt_irrefl _ hab

theorem length_of_mem {L : List X} {S : X → Prop} (hn : L.Nodup) (hm : ∀ x, x ∈ L ↔ S x) : L.length = Nat.card {x // S x} := by
  classical
  rw [Nat.subtype_card L.toFinset (by simpa using hm), List.toFinset_card_of_nodup hn]

theorem length_elems (lo hi : ℕ) : (elems e P lo hi).length = Nat.card {x // lo ≤ e x ∧ e x < hi ∧ P x} :=
  length_of_mem (nodup_of_key (elems_pairwise e P lo hi)) fun _ => mem_elems e P

theorem length_elems_true (lo hi : ℕ) : (elems e (fun _ => True) lo hi).length = hi - lo := by
  unfold elems; simp

end elems

section loop
variable {V : Prop} {σ α β X : Type} {e : X ≃ ℕ} {P : X → Prop} [DecidablePred P] {srep : σ → X → Prop} {rep : α → β → Prop}
  {f : X → β} {Q : ℕ} {lt keep : σ → Res Bool} {mk : σ → Res α} {incr : σ → Res σ}

theorem forall₂_take_set {rv : TVec α} {i : ℕ} {L : List β} {a : α} {b : β} (hi : i < rv.length) (h : Forall₂ rep (rv.take i) L) (hab : rep a b) :
    Forall₂ rep ((rv.set i a).take (i + 1)) (L ++ [b]) := by
  have : (rv.set i a).take (i + 1) = rv.take i ++ [a] := by
    rw [List.take_add_one, List.take_set_of_le le_rfl]
    simp [hi]
  rw [this]
  exact List.rel_append h (by simpa using hab)

/-- The loop writes the elements from the start to `Q` that satisfy `P`, in ascending order. -/
theorem listLoop_sat (hlt : ∀ s x, srep s x → (lt s).Sat V (fun b => b = true ↔ e x < Q))
    (hkeep : ∀ s x, srep s x → e x < Q → (keep s).Sat V (fun b => b = true ↔ P x))
    (hmk : ∀ s x, srep s x → e x < Q → (mk s).Sat V (fun a => rep a (f x)))
    (hinc : ∀ s x, srep s x → e x < Q → (incr s).Sat V (fun t => ∃ y, srep t y ∧ e y = e x + 1)) :
    ∀ (k : ℕ) (s : σ) (x : X) (i : ℕ) (rv : TVec α) (L : List β), srep s x → Q - e x < k → Forall₂ rep (rv.take i) L →
      i + (elems e P (e x) Q).length ≤ rv.length →
      (listLoop lt keep mk incr k s i rv).Sat V fun r => r.2.length = rv.length ∧ r.1 = i + (elems e P (e x) Q).length ∧
        Forall₂ rep (r.2.take r.1) (L ++ (elems e P (e x) Q).map f)
  | 0, _, _, _, _, _, _, h, _, _ => by omega
  | k + 1, s, x, i, rv, L, hs, hk, hL, hlen => by
    unfold listLoop
    refine (hlt s x hs).bind fun c hc => ?_
    by_cases hx : e x < Q
    · rw [if_pos (hc.mpr hx)]
      refine (hkeep s x hs hx).bind fun b hb => ?_
      rw [elems_of_lt e P hx] at hlen ⊢
      by_cases hp : P x
      · rw [if_pos (hb.mpr hp)]
        rw [if_pos hp, List.length_cons] at hlen
        rw [if_pos hp]
        refine (vput_sat (by omega) (hmk s x hs hx)).bind fun w ⟨a, ha, hw⟩ => ?_
        refine (hinc s x hs hx).bind fun t ⟨y, hy, hye⟩ => ?_
        rw [← hye] at hlen ⊢
        refine (listLoop_sat hlt hkeep hmk hinc k t y (i + 1) w (L ++ [f x]) hy (by omega) ?_ ?_).mono fun r ⟨h1, h2, h3⟩ => ⟨?_, ?_, ?_⟩
        · rw [hw]; exact forall₂_take_set (by omega) hL ha
        · rw [hw, List.length_set]; omega
        · rw [h1, hw, List.length_set]
        · rw [h2, List.length_cons]; omega
        · rw [List.append_assoc] at h3; exact h3
      · rw [if_neg (fun h => hp (hb.mp h))]
        rw [if_neg hp] at hlen ⊢
        refine (hinc s x hs hx).bind fun t ⟨y, hy, hye⟩ => ?_
        rw [← hye] at hlen ⊢
        exact listLoop_sat hlt hkeep hmk hinc k t y i rv L hy (by omega) hL hlen
    · rw [if_neg (fun h => hx (hc.mp h)), Sat_ok, elems_of_ge e P (by omega)]
      exact ⟨rfl, by simp, by simpa using hL⟩

/-- starting with a fresh vector -/
theorem listLoop_fresh (hlt : ∀ s x, srep s x → (lt s).Sat V (fun b => b = true ↔ e x < Q))
    (hkeep : ∀ s x, srep s x → e x < Q → (keep s).Sat V (fun b => b = true ↔ P x))
    (hmk : ∀ s x, srep s x → e x < Q → (mk s).Sat V (fun a => rep a (f x)))
    (hinc : ∀ s x, srep s x → e x < Q → (incr s).Sat V (fun t => ∃ y, srep t y ∧ e y = e x + 1))
    {k : ℕ} {s : σ} {x : X} {d : α} {N : ℕ} (hs : srep s x) (hk : Q - e x < k) (hN : (elems e P (e x) Q).length ≤ N) (hN0 : 0 < N) :
    (do let rv ← TVec.fill d (N : Int); listLoop lt keep mk incr k s 0 rv : Res (ℕ × TVec α)).Sat V fun r =>
      r.2.length = N ∧ r.1 = (elems e P (e x) Q).length ∧ Forall₂ rep (r.2.take r.1) ((elems e P (e x) Q).map f) := by
  unfold TVec.fill
  rw [if_neg (by omega), ok_bind, Int.toNat_natCast]
  refine (listLoop_sat hlt hkeep hmk hinc k s x 0 (List.replicate N d) [] hs hk (by simp) (by simpa using hN)).mono fun r ⟨h1, h2, h3⟩ => ?_
  exact ⟨by simpa using h1, by simpa using h2, by simpa using h3⟩

end loop

/-! ### what a listing is -/
section spec
variable {α R X : Type}

/-- `r` contains each element satisfying `S` exactly once and nothing else, and is in the order given by `lt` -/
def Enum (rep : α → R → Prop) (lt : α → α → Prop) (r : List α) (S : R → Prop) : Prop :=
  (∃ L : List R, Forall₂ rep r L ∧ L.Nodup ∧ ∀ x, x ∈ L ↔ S x) ∧ r.Pairwise lt

theorem pairwise_of_forall₂ {A B : Type} {T : A → B → Prop} {S : B → B → Prop} {lt : A → A → Prop} {as : List A} {bs : List B}
    (h : Forall₂ T as bs) (hp : bs.Pairwise S) (hs : ∀ a b x y, T a x → T b y → S x y → lt a b) : as.Pairwise lt := by
  induction h with
  | nil => exact List.Pairwise.nil
  | @cons a b as bs hab h ih =>
    rw [List.pairwise_cons] at hp ⊢
    refine ⟨fun c hc => ?_, ih hp.2⟩
    obtain ⟨i, hi, rfl⟩ := List.getElem_of_mem hc
    exact hs _ _ _ _ hab (h.get hi (h.length_eq ▸ hi)) (hp.1 _ (List.getElem_mem _))

variable {e : X ≃ ℕ} {P : X → Prop} [DecidablePred P] {rep : α → R → Prop} {lt : α → α → Prop} {f : X → R} {lo hi : ℕ} {S : R → Prop}

theorem nodup_elems_map (hinj : ∀ x y, e x < hi → e y < hi → f x = f y → x = y) : ((elems e P lo hi).map f).Nodup := by
  refine List.Nodup.map_on (fun x hx y hy h => ?_) (nodup_of_key (elems_pairwise e P lo hi))
  exact hinj x y ((mem_elems e P).mp hx).2.1 ((mem_elems e P).mp hy).2.1 h

theorem mem_elems_map (hS : ∀ y, S y ↔ ∃ x, lo ≤ e x ∧ e x < hi ∧ P x ∧ f x = y) (y : R) : y ∈ (elems e P lo hi).map f ↔ S y := by
  rw [hS, List.mem_map]
  constructor
  · rintro ⟨x, hx, rfl⟩
    obtain ⟨h1, h2, h3⟩ := (mem_elems e P).mp hx
    exact ⟨x, h1, h2, h3, rfl⟩
  · rintro ⟨x, h1, h2, h3, rfl⟩
    exact ⟨x, (mem_elems e P).mpr ⟨h1, h2, h3⟩, rfl⟩

theorem length_elems_map (hinj : ∀ x y, e x < hi → e y < hi → f x = f y → x = y)
    (hS : ∀ y, S y ↔ ∃ x, lo ≤ e x ∧ e x < hi ∧ P x ∧ f x = y) : (elems e P lo hi).length = Nat.card {y // S y} := by
  rw [← length_of_mem (nodup_elems_map hinj) (mem_elems_map hS), List.length_map]

theorem enum_of {r : List α} (h : Forall₂ rep r ((elems e P lo hi).map f)) (hinj : ∀ x y, e x < hi → e y < hi → f x = f y → x = y)
    (hS : ∀ y, S y ↔ ∃ x, lo ≤ e x ∧ e x < hi ∧ P x ∧ f x = y)
    (hlt : ∀ a b x y, rep a (f x) → rep b (f y) → e x < e y → e y < hi → lt a b) : Enum rep lt r S := by
  refine ⟨⟨_, h, nodup_elems_map hinj, mem_elems_map hS⟩, ?_⟩
  rw [List.forall₂_map_right_iff] at h
  refine pairwise_of_forall₂ h ((elems_pairwise e P lo hi).imp_of_mem (S := fun x y => e x < e y ∧ e y < hi) fun {a b} _ hb hab =>
    ⟨hab, ((mem_elems e P).mp hb).2.1⟩) fun a b x y ha hb hxy => hlt a b x y ha hb hxy.1 hxy.2

end spec

theorem card_isUnit {M : Type} [Monoid M] : Nat.card {x : M // IsUnit x} = Nat.card Mˣ := by
  refine (Nat.card_congr (Equiv.ofBijective (fun u : Mˣ => (⟨u, u.isUnit⟩ : {x : M // IsUnit x})) ⟨fun a b h => ?_, fun x => ?_⟩)).symm
  · exact Units.ext (Subtype.ext_iff.mp h)
  · obtain ⟨u, hu⟩ := x.2
    exact ⟨u, Subtype.ext hu⟩

theorem card_compl {M : Type} [Finite M] (p : M → Prop) : Nat.card {x : M // p x} + Nat.card {x : M // ¬ p x} = Nat.card M := by
  classical
  haveI := Fintype.ofFinite M
  rw [← Nat.card_sum]
  exact Nat.card_congr (Equiv.sumCompl p)

theorem card_true {M : Type} : Nat.card {x : M // True} = Nat.card M := Nat.card_congr (Equiv.Set.univ M)

/-! ### polynomials over F2 -/
section f2
open F2P
open F2nP (kv natCard_eq degree_lt_of_nval nval_lt_of_degree_lt nval_X_pow exists_red)
variable {V : Prop} {m : (ZMod 2)[X]}

/-- polynomials over F2 are numbered by their bits -/
noncomputable def nvE : (ZMod 2)[X] ≃ ℕ := Equiv.ofBijective nval ⟨fun _ _ h => nval_inj h, fun n => F2U.exists_elt n⟩

theorem nvE_apply (p : (ZMod 2)[X]) : nvE p = nval p := rfl

theorem max_ok (n : ℕ) : (set_bit F2P.zero (n : Int)).Ok fun r => Canon r ∧ toPoly r = X ^ n := by
  refine (set_bit_new canon_zero.ne_nil (n := n) ?_).mono fun r ⟨h1, h2⟩ => ⟨h2 canon_zero, by rw [h1, toPoly_zero, zero_add]⟩
  have := toPoly_zero
  rw [toPoly_eq_zero] at this
  exact this n

theorem f2_lt {r max : F2P} {n : ℕ} (hr : r ≠ []) (hm : Canon max) (ht : toPoly max = X ^ n) :
    (F2P.lt r max).Sat V fun b => b = true ↔ nvE (toPoly r) < 2 ^ n := by
  rw [lt_ok hr hm.ne_nil, Sat_ok, ht, nval_X_pow, decide_eq_true_iff]; rfl

theorem f2_poly_list_ok {n : ℕ} (hn : n ≤ 30) : (f2_poly_list n).Ok fun r =>
    Enum (fun a p => Canon a ∧ toPoly a = p) (fun a b => F2P.lt a b = ok true) r (fun p => p ≠ 0 ∧ p.natDegree = n) := by
  unfold f2_poly_list
  rw [ishl_one (by omega), ok_bind]
  rw [show ((2 : Int) ^ n) = ((2 ^ n : ℕ) : Int) by push_cast; rfl]
  have hpow : 0 < 2 ^ n := Nat.two_pow_pos n
  obtain ⟨mn, h1, h1c, h1t⟩ := max_ok n
  obtain ⟨mx, h2, h2c, h2t⟩ := max_ok (n + 1)
  rw [Int.toNat_natCast]
  have key := listLoop_fresh (V := False) (e := nvE) (P := fun _ => True) (srep := fun a p => Canon a ∧ toPoly a = p)
    (rep := fun a p => Canon a ∧ toPoly a = p) (f := id) (Q := 2 ^ (n + 1)) (lt := fun r => F2P.lt r mx) (keep := fun _ => ok true)
    (mk := ok) (incr := increment) (k := 2 ^ n + 1) (s := mn) (x := X ^ n) (d := F2P.zero) (N := 2 ^ n) ?_ ?_ ?_ ?_ ⟨h1c, h1t⟩ ?_ ?_ hpow
  · obtain ⟨r, hr, g1, g2, g3⟩ := sat_false.mp key
    rw [nvE_apply, nval_X_pow] at g2 g3
    rw [length_elems_true, pow_succ, show 2 ^ n * 2 - 2 ^ n = 2 ^ n by omega] at g2
    rw [List.take_of_length_le (by omega)] at g3
    have e1 : iadd (n : Int) 1 = ok (((n + 1 : ℕ)) : Int) := by
      rw [iadd, chk_ok (by unfold InInt; omega), Nat.cast_add, Nat.cast_one]
    rw [bind_eq_ok] at hr
    obtain ⟨rv, r1, r2⟩ := hr
    rw [r1, ok_bind, h1, ok_bind, e1, ok_bind, h2, ok_bind, r2, ok_bind, Ok_ok]
    refine enum_of g3 (fun x y _ _ h => h) (fun y => ?_) ?_
    · simp only [id, nvE_apply, true_and]
      constructor
      · rintro ⟨hy, rfl⟩
        exact ⟨y, pow_le_nval hy, nval_lt_pow y, rfl⟩
      · rintro ⟨x, a, b, rfl⟩
        have hx : x ≠ 0 := by rintro rfl; simp [nval] at a
        refine ⟨hx, ?_⟩
        have c1 := (Nat.pow_lt_pow_iff_right (by norm_num : 1 < 2)).mp ((pow_le_nval hx).trans_lt b)
        have c2 := (Nat.pow_lt_pow_iff_right (by norm_num : 1 < 2)).mp (a.trans_lt (nval_lt_pow x))
        omega
    · rintro a b x y ⟨ha, hx⟩ ⟨hb, hy⟩ hlt -
      have hlt' : nval (id x) < nval (id y) := hlt
      rw [lt_ok ha.ne_nil hb.ne_nil, hx, hy, decide_eq_true hlt']
  · rintro s x ⟨hs, rfl⟩; exact f2_lt hs.ne_nil h2c h2t
  · intro s x _ _; rw [Sat_ok]; simp
  · intro s x hs _; rw [Sat_ok]; exact hs
  · rintro s x ⟨hs, rfl⟩ _
    exact ((increment_ok hs).mono fun t ht => ⟨_, ⟨ht.2, rfl⟩, ht.1⟩).sat
  · rw [nvE_apply, nval_X_pow, pow_succ]; omega
  · rw [length_elems_true, nvE_apply, nval_X_pow, pow_succ]; omega

theorem f2_fill_sat {mm : F2P} (hmc : Canon mm) (hm : toPoly mm = m) (hm0 : m ≠ 0) {T : AdjoinRoot m → Prop} {keep : F2P → Res Bool}
    (hkeep : ∀ s, Canon s → (keep s).Sat V fun b => b = true ↔ T (AdjoinRoot.mk m (toPoly s))) {d : F2Mod} {N : ℕ} (h0 : 0 < N)
    (hN : Nat.card {y // T y} ≤ N) :
    (f2_fill d mm m.natDegree keep N).Sat V fun r => r.2.length = N ∧ r.1 = Nat.card {y // T y} ∧
      Enum (F2Mod.Rep m) (fun a b => F2Mod.lt a b = ok true) (r.2.take r.1) T := by
  classical
  unfold f2_fill
  obtain ⟨mx, h2, h2c, h2t⟩ := max_ok m.natDegree
  have hz : nvE (0 : (ZMod 2)[X]) = 0 := by simp [nvE_apply, nval]
  have hinj : ∀ x y : (ZMod 2)[X], nvE x < 2 ^ m.natDegree → nvE y < 2 ^ m.natDegree → AdjoinRoot.mk m x = AdjoinRoot.mk m y → x = y :=
    fun x y hx hy h => F2Mod.mk_inj (degree_lt_of_nval hm0 hx) (degree_lt_of_nval hm0 hy) h
  have hS : ∀ y, T y ↔ ∃ x : (ZMod 2)[X], 0 ≤ nvE x ∧ nvE x < 2 ^ m.natDegree ∧ T (AdjoinRoot.mk m x) ∧ AdjoinRoot.mk m x = y := by
    intro y
    constructor
    · intro hy
      obtain ⟨p, hp, rfl⟩ := exists_red hm0 y
      exact ⟨p, Nat.zero_le _, nval_lt_of_degree_lt hm0 hp, hy, rfl⟩
    · rintro ⟨x, -, -, h, rfl⟩; exact h
  have hcard := length_elems_map hinj hS
  have key := listLoop_fresh (V := V) (e := nvE) (P := fun p => T (AdjoinRoot.mk m p)) (srep := fun a p => Canon a ∧ toPoly a = p)
    (rep := F2Mod.Rep m) (f := AdjoinRoot.mk m) (Q := 2 ^ m.natDegree) (lt := fun r => F2P.lt r mx) (keep := keep)
    (mk := fun r => F2Mod.mk' r mm) (incr := increment) (k := 2 ^ m.natDegree + 1) (s := F2P.zero) (x := 0) (d := d) (N := N)
    ?_ ?_ ?_ ?_ ⟨canon_zero, toPoly_zero⟩ ?_ ?_ h0
  · rw [hz, hcard] at key
    unfold TVec.fill at key ⊢
    rw [if_neg (by omega), ok_bind] at key ⊢
    rw [h2, ok_bind]
    refine key.mono fun r ⟨g1, g2, g3⟩ => ⟨g1, g2, enum_of g3 hinj hS ?_⟩
    intro a b x y ha hb hxy hy
    have hx := degree_lt_of_nval hm0 (hxy.trans hy)
    have hy := degree_lt_of_nval hm0 hy
    have e1 := F2Mod.mk_inj ha.deg hx ha.val
    have e2 := F2Mod.mk_inj hb.deg hy hb.val
    unfold F2Mod.lt
    rw [F2Mod.check_ok ha hb, ok_bind, lt_ok ha.cr.ne_nil hb.cr.ne_nil, e1, e2]
    rw [nvE_apply, nvE_apply] at hxy
    rw [decide_eq_true hxy]
  · rintro s x ⟨hs, rfl⟩; exact f2_lt hs.ne_nil h2c h2t
  · rintro s x ⟨hs, rfl⟩ _; exact hkeep s hs
  · rintro s x ⟨hs, rfl⟩ _
    exact ((F2Mod.mk'_ok hs.good hmc hm hm0).mono fun a ha => ha.1).sat
  · rintro s x ⟨hs, rfl⟩ _
    exact ((increment_ok hs).mono fun t ht => ⟨_, ⟨ht.2, rfl⟩, ht.1⟩).sat
  · exact Nat.lt_succ_of_le (Nat.sub_le _ _)
  · rw [hz, hcard]; exact hN

theorem f2_unit_test_ok {r mm : F2P} (hr : Canon r) (hmc : Canon mm) (hm0 : toPoly mm ≠ 0) :
    (f2_unit_test r mm).Ok fun b => b = true ↔ IsCoprime (toPoly r) (toPoly mm) := by
  unfold f2_unit_test
  obtain ⟨g, h1, h2, h3⟩ := gcd_ok hr hmc
  rw [h1, ok_bind, find_degree_ok, ok_bind, ← isGcd_eq_one_iff_F2 h2]
  have hg0 : toPoly g ≠ 0 := fun h => hm0 (zero_dvd_iff.mp (h ▸ h2.2.1))
  split
  · rename_i hd
    rw [F2Mod.ne_ok h3.ne_nil canon_zero.ne_nil, Ok_ok, toPoly_zero]
    simp only [hg0, decide_false, Bool.not_false, true_iff]
    exact (natDegree_zero_cases (by exact_mod_cast hd)).resolve_left hg0
  · rename_i hd
    rw [Ok_ok]
    simp only [Bool.false_eq_true, false_iff]
    intro h; rw [h] at hd; simp at hd

theorem f2_nonunit_test_ok {r mm : F2P} (hr : Canon r) (hmc : Canon mm) (hm0 : toPoly mm ≠ 0) :
    (f2_nonunit_test r mm).Ok fun b => b = true ↔ ¬ IsCoprime (toPoly r) (toPoly mm) := by
  unfold f2_nonunit_test
  obtain ⟨g, h1, h2, h3⟩ := gcd_ok hr hmc
  rw [h1, ok_bind, find_degree_ok, ok_bind, ← isGcd_eq_one_iff_F2 h2]
  have hg0 : toPoly g ≠ 0 := fun h => hm0 (zero_dvd_iff.mp (h ▸ h2.2.1))
  split
  · rename_i hd
    rw [Ok_ok]
    simp only [true_iff]
    intro h; rw [h] at hd; simp at hd
  · rename_i hd
    rw [F2P.eq_ok h3.ne_nil canon_zero.ne_nil, Ok_ok, toPoly_zero]
    simp only [hg0, decide_false, Bool.false_eq_true, false_iff, not_not]
    exact (natDegree_zero_cases (by simpa using hd)).resolve_left hg0

/-- a full vector -/
theorem full {mm : F2P} {T : AdjoinRoot m → Prop} {x : Res (ℕ × TVec F2Mod)}
    (h : x.Sat V fun r => r.2.length = Nat.card {y // T y} ∧ r.1 = Nat.card {y // T y} ∧
      Enum (F2Mod.Rep m) (fun a b => F2Mod.lt a b = ok true) (r.2.take r.1) T) :
    (do let s ← x; ok s.2 : Res (TVec F2Mod)).Sat V fun r => Enum (F2Mod.Rep m) (fun a b => F2Mod.lt a b = ok true) r T := by
  refine h.bind fun s ⟨h1, h2, h3⟩ => ?_
  rw [Sat_ok]
  rwa [List.take_of_length_le (by omega)] at h3

variable {tm : TrimMask} {mm : F2P}

theorem f2_all_ok (hmc : Canon mm) (hm : toPoly mm = m) (hm0 : m ≠ 0) (hd : m.natDegree ≤ 30) :
    (f2_polymod_list tm mm .all).Ok fun r => Enum (F2Mod.Rep m) (fun a b => F2Mod.lt a b = ok true) r (fun _ => True) := by
  unfold f2_polymod_list
  rw [find_degree_ok, ok_bind, hm]
  dsimp only
  rw [ishl_one (by omega), ok_bind, show ((2 : Int) ^ m.natDegree) = ((2 ^ m.natDegree : ℕ) : Int) by push_cast; rfl]
  have hc : Nat.card {y : AdjoinRoot m // True} = 2 ^ m.natDegree := by rw [card_true, natCard_eq hm0]
  refine sat_false.mp (full (mm := mm) ?_)
  rw [hc, ← hc]
  exact (f2_fill_sat hmc hm hm0 (fun s _ => by rw [Sat_ok]; simp) (by rw [hc]; positivity) le_rfl)

theorem f2_units_sat (H : ∀ k, (tm k).Sat V fun _ => True) (hmc : Canon mm) (hm : toPoly mm = m) (hm0 : m ≠ 0)
    (hmax : (m.natDegree : Int) ≤ INT_MAX) (hlt : Nat.card (AdjoinRoot m)ˣ < 2147483647) :
    (f2_polymod_list tm mm .units).Sat V fun r => Enum (F2Mod.Rep m) (fun a b => F2Mod.lt a b = ok true) r IsUnit := by
  haveI := F2U.finite_adjoin hm0
  unfold f2_polymod_list
  rw [find_degree_ok, ok_bind, hm]
  dsimp only
  refine (F2U.totient_card H hmc hm hm0 hmax hlt).bind fun phi hphi => ?_
  subst hphi
  rw [← card_isUnit]
  refine full (mm := mm) (f2_fill_sat hmc hm hm0 (fun s hs => ?_) (by rw [card_isUnit]; exact Nat.card_pos) le_rfl)
  refine ((f2_unit_test_ok hs hmc (by rwa [hm])).mono fun b hb => ?_).sat
  rw [hb, F2Mod.isUnit_mk, hm]

theorem f2_nonunits_sat (H : ∀ k, (tm k).Sat V fun _ => True) (hmc : Canon mm) (hm : toPoly mm = m) (hpos : 0 < m.natDegree)
    (hd : m.natDegree ≤ 30) :
    (f2_polymod_list tm mm .non_units).Sat V fun r => Enum (F2Mod.Rep m) (fun a b => F2Mod.lt a b = ok true) r (fun x => ¬ IsUnit x) := by
  have hm0 : m ≠ 0 := by rintro rfl; simp at hpos
  haveI := F2U.finite_adjoin hm0
  have hq : 2 ^ m.natDegree ≤ 2 ^ 30 := Nat.pow_le_pow_right (by norm_num) hd
  have hc := card_compl (M := AdjoinRoot m) IsUnit
  rw [natCard_eq hm0, card_isUnit] at hc
  unfold f2_polymod_list
  rw [find_degree_ok, ok_bind, hm]
  dsimp only
  rw [ishl_one (by omega), ok_bind, show ((2 : Int) ^ m.natDegree) = ((2 ^ m.natDegree : ℕ) : Int) by push_cast; rfl]
  refine (F2U.totient_card H hmc hm hm0 (by unfold INT_MAX; omega) (by omega)).bind fun phi hphi => ?_
  subst hphi
  rw [isub, show ((2 ^ m.natDegree : ℕ) : Int) - (Nat.card (AdjoinRoot m)ˣ : Int) = (Nat.card {x : AdjoinRoot m // ¬ IsUnit x} : Int) by omega,
    chk_ok (by unfold InInt; omega), ok_bind]
  have h1 : ¬ IsUnit (0 : AdjoinRoot m) := by
    rw [← map_zero (AdjoinRoot.mk m), F2Mod.isUnit_mk, isCoprime_zero_left]
    intro h
    rw [natDegree_eq_zero_of_isUnit h] at hpos; exact lt_irrefl _ hpos
  haveI : Nonempty {x : AdjoinRoot m // ¬ IsUnit x} := ⟨⟨0, h1⟩⟩
  refine full (mm := mm) (f2_fill_sat hmc hm hm0 (fun s hs => ?_) Nat.card_pos le_rfl)
  refine ((f2_nonunit_test_ok hs hmc (by rwa [hm])).mono fun b hb => ?_).sat
  rw [hb, F2Mod.isUnit_mk, hm]

theorem trim_sat {T : AdjoinRoot m → Prop} {N : ℕ} {x : Res (ℕ × TVec F2Mod)} (h0 : 0 < Nat.card {y // T y}) (hN : Nat.card {y // T y} ≤ N)
    (h : x.Sat V fun r => r.2.length = N ∧ r.1 = Nat.card {y // T y} ∧
      Enum (F2Mod.Rep m) (fun a b => F2Mod.lt a b = ok true) (r.2.take r.1) T) :
    (do let s ← x; trim s.2 s.1 : Res (TVec F2Mod)).Sat V fun r => Enum (F2Mod.Rep m) (fun a b => F2Mod.lt a b = ok true) r T := by
  refine h.bind fun s ⟨h1, h2, h3⟩ => ?_
  unfold trim
  rw [if_neg (by omega), Sat_ok]
  exact h3

theorem dvd_mk_iff {p g d : (ZMod 2)[X]} (hd : IsGcd d m g) : d ∣ p ↔ AdjoinRoot.mk m g ∣ AdjoinRoot.mk m p := by
  obtain ⟨u, v, huv⟩ : ∃ u v, d = u * m + v * g := by
    classical
    have h1 := hd.2.2 (EuclideanDomain.gcd m g) (EuclideanDomain.gcd_dvd_left _ _) (EuclideanDomain.gcd_dvd_right _ _)
    have h2 := EuclideanDomain.dvd_gcd hd.1 hd.2.1
    obtain ⟨w, hw⟩ := h1
    refine ⟨EuclideanDomain.gcdA m g * w, EuclideanDomain.gcdB m g * w, ?_⟩
    conv_lhs => rw [hw, EuclideanDomain.gcd_eq_gcd_ab]
    ring
  constructor
  · rintro ⟨w, rfl⟩
    refine ⟨AdjoinRoot.mk m (v * w), ?_⟩
    rw [← map_mul, AdjoinRoot.mk_eq_mk]
    exact ⟨u * w, by rw [huv]; ring⟩
  · rintro ⟨w, hw⟩
    obtain ⟨w, rfl⟩ := AdjoinRoot.mk_surjective w
    rw [← map_mul, AdjoinRoot.mk_eq_mk] at hw
    have h1 : d ∣ g * w := hd.2.1.mul_right _
    have := (hd.1.trans hw).add h1
    rwa [sub_add_cancel] at this

theorem coprime_mk_iff {p g d : (ZMod 2)[X]} (hd : IsGcd d m g) : IsCoprime p d ↔ IsCoprime (AdjoinRoot.mk m p) (AdjoinRoot.mk m g) := by
  constructor
  · intro h
    have h1 := h.map (AdjoinRoot.mk m)
    exact h1.of_isCoprime_of_dvd_right ((dvd_mk_iff hd).mp dvd_rfl)
  · rintro ⟨a, b, hab⟩
    obtain ⟨a, rfl⟩ := AdjoinRoot.mk_surjective a
    obtain ⟨b, rfl⟩ := AdjoinRoot.mk_surjective b
    rw [← map_mul, ← map_mul, ← map_add, ← map_one (AdjoinRoot.mk m), AdjoinRoot.mk_eq_mk] at hab
    obtain ⟨c, hc⟩ := hab
    obtain ⟨m', hm'⟩ := hd.1
    obtain ⟨g', hg'⟩ := hd.2.1
    refine ⟨a, b * g' - m' * c, ?_⟩
    have : a * p + b * g = 1 + m * c := by rw [← hc]; ring
    calc a * p + (b * g' - m' * c) * d = (a * p + b * (d * g')) - (d * m') * c := by ring
      _ = 1 := by rw [← hg', ← hm', this]; ring

theorem f2_multiples_ok {g : F2Mod} {x : AdjoinRoot m} (hg : F2Mod.Rep m g x) (hd : m.natDegree ≤ 30) :
    (f2_polymod_glist g .multiples).Ok fun r => Enum (F2Mod.Rep m) (fun a b => F2Mod.lt a b = ok true) r (fun y => x ∣ y) := by
  have hm0 := hg.m_ne
  haveI := F2U.finite_adjoin hm0
  unfold f2_polymod_glist
  obtain ⟨d, h1, h2, h3⟩ := gcd_ok hg.cm hg.cr
  rw [h1, ok_bind, find_degree_ok, ok_bind, hg.hm, ishl_one (by omega), ok_bind,
    show ((2 : Int) ^ m.natDegree) = ((2 ^ m.natDegree : ℕ) : Int) by push_cast; rfl]
  dsimp only
  rw [hg.hm] at h2
  have hd0 : toPoly d ≠ 0 := fun h => hm0 (zero_dvd_iff.mp (h ▸ h2.1))
  have hle : Nat.card {y // x ∣ y} ≤ 2 ^ m.natDegree := by
    rw [← natCard_eq hm0]; exact Nat.card_le_card_of_injective _ Subtype.val_injective
  haveI : Nonempty {y // x ∣ y} := ⟨⟨0, dvd_zero _⟩⟩
  refine sat_false.mp (trim_sat Nat.card_pos hle (f2_fill_sat hg.cm hg.hm hm0 (fun s hs => ?_) (Nat.two_pow_pos _) hle))
  obtain ⟨t, t1, t2, t3⟩ := F2P.mod_ok hs.good h3.ne_nil hd0
  rw [t1, ok_bind, F2P.eq_ok t3.ne_nil canon_zero.ne_nil, Sat_ok, t2, toPoly_zero, decide_eq_true_iff, EuclideanDomain.mod_eq_zero,
    dvd_mk_iff h2, hg.val]

theorem f2_relprime_ok {g : F2Mod} {x : AdjoinRoot m} (hg : F2Mod.Rep m g x) (hd : m.natDegree ≤ 30) :
    (f2_polymod_glist g .rel_prime).Ok fun r => Enum (F2Mod.Rep m) (fun a b => F2Mod.lt a b = ok true) r (fun y => IsCoprime y x) := by
  have hm0 := hg.m_ne
  haveI := F2U.finite_adjoin hm0
  unfold f2_polymod_glist
  obtain ⟨d, h1, h2, h3⟩ := gcd_ok hg.cm hg.cr
  rw [h1, ok_bind, find_degree_ok, ok_bind, hg.hm, ishl_one (by omega), ok_bind,
    show ((2 : Int) ^ m.natDegree) = ((2 ^ m.natDegree : ℕ) : Int) by push_cast; rfl]
  dsimp only
  rw [hg.hm] at h2
  have hd0 : toPoly d ≠ 0 := fun h => hm0 (zero_dvd_iff.mp (h ▸ h2.1))
  have hle : Nat.card {y // IsCoprime y x} ≤ 2 ^ m.natDegree := by
    rw [← natCard_eq hm0]; exact Nat.card_le_card_of_injective _ Subtype.val_injective
  haveI : Nonempty {y // IsCoprime y x} := ⟨⟨1, isCoprime_one_left⟩⟩
  refine sat_false.mp (trim_sat Nat.card_pos hle (f2_fill_sat hg.cm hg.hm hm0 (fun s hs => ?_) (Nat.two_pow_pos _) hle))
  refine ((f2_unit_test_ok hs h3 hd0).mono fun b hb => ?_).sat
  rw [hb, coprime_mk_iff h2, hg.val]

end f2
end Lists
end Spffl
