/-
Programs on polynomial objects, with polynomials as values.
-/
import Verif.Proof.PolyProg
import Verif.Proof.CPoly

namespace Spffl
open Res Polynomial
namespace PolyStore

variable {U : Prop} {α R : Type} [CommRing R] {O : CoefOps α} {inv : α} {rep : α → R → Prop} {ord : R → R → Prop}

/-- For each object: `none` once it has been destroyed, `some none` if it has been created without a value, otherwise its polynomial. -/
abbrev Polys (R : Type) [CommRing R] := List (Option (Option R[X]))

/-- What the operations are meant to do: the polynomials afterwards, and the number of arrays that nobody owns any more. -/
inductive SStep (rep : α → R → Prop) (V : Polys R) : Op α → Polys R → Nat → Prop where
  | create : SStep rep V .create (V ++ [some none]) 0
  | const {c x} : rep c x → SStep rep V (.const c) (V ++ [some (some (C x))]) 0
  | copy {i f} : V[i]? = some (some (some f)) → SStep rep V (.copy i) (V ++ [some (some f)]) 0
  | assign {i j v f} : V[i]? = some (some v) → V[j]? = some (some (some f)) → i ≠ j →
      SStep rep V (.assign i j) (V.set i (some (some f))) 0
  | add {i j f g} : V[i]? = some (some (some f)) → V[j]? = some (some (some g)) → SStep rep V (.add i j) (V ++ [some (some (f + g))]) 1
  | sub {i j f g} : V[i]? = some (some (some f)) → V[j]? = some (some (some g)) → SStep rep V (.sub i j) (V ++ [some (some (f - g))]) 1
  | mul {i j f g} : V[i]? = some (some (some f)) → V[j]? = some (some (some g)) → SStep rep V (.mul i j) (V ++ [some (some (f * g))]) 1
  | neg {i f} : V[i]? = some (some (some f)) → f.natDegree = 0 → SStep rep V (.neg i) (V ++ [some (some (-f))]) 1
  | smul {i f c x} : V[i]? = some (some (some f)) → rep c x → SStep rep V (.smul i c) (V ++ [some (some (f * C x))]) 0
  | set {i f c x} {n : ℕ} : V[i]? = some (some (some f)) → rep c x → SStep rep V (.set i n c) (V.set i (some (some (f.update n x)))) 0
  | short {i j k l f g u v} : V[i]? = some (some (some f)) → V[j]? = some (some (some g)) → V[k]? = some (some u) → V[l]? = some (some v) →
      f.degree < g.degree → i ≠ k → i ≠ l → SStep rep V (.divmod i j k l) ((V.set k (some (some 0))).set l (some (some f))) 0
  | long {i j k l f g u v q r} : V[i]? = some (some (some f)) → V[j]? = some (some (some g)) → V[k]? = some (some u) → V[l]? = some (some v) →
      IsUnit g.leadingCoeff → g.degree ≤ f.degree → g ≠ 0 → f = q * g + r → r.degree < g.degree →
      SStep rep V (.divmod i j k l) ((V.set k (some (some q))).set l (some (some r))) 1
  | destroy {i v} : V[i]? = some (some v) → SStep rep V (.destroy i) (V.set i none) 0

inductive SRun (rep : α → R → Prop) : Polys R → List (Op α) → Polys R → Nat → Prop where
  | nil {V} : SRun rep V [] V 0
  | cons {V W X o ops m n} : SStep rep V o W m → SRun rep W ops X n → SRun rep V (o :: ops) X (m + n)

/-- A value and what it stands for. -/
def ER (rep : α → R → Prop) : Option (CPoly α) → Option (Option R[X]) → Prop
  | none, none => True
  | some _, some none => True
  | some P, some (some f) => CPoly.PRep rep P f
  | _, _ => False

structure VRep (rep : α → R → Prop) (S : Vals α) (V : Polys R) : Prop where
  len : S.length = V.length
  at_ : ∀ (i : ℕ) (a : Option (CPoly α)) (b : Option (Option R[X])), S[i]? = some a → V[i]? = some b → ER rep a b

variable {S : Vals α} {V : Polys R}

theorem _root_.Spffl.Res.Sim.sat {β γ : Type} {U : Prop} {x : Res β} {y : Res γ} {Q : β → γ → Prop} (h : Sim x y Q) {P : γ → Prop} (hy : y.Sat U P) :
    x.Sat U fun a => ∃ b, P b ∧ Q a b := by
  cases x <;> cases y <;> simp only [Sim] at h <;> simp_all [Res.Sat]
  exact ⟨_, hy, h⟩

theorem VRep.look (h : VRep rep S V) {i : ℕ} {b : Option (Option R[X])} (hb : V[i]? = some b) : ∃ a, S[i]? = some a ∧ ER rep a b := by
  have hi : i < S.length := by rw [h.len]; exact (List.getElem?_eq_some_iff.1 hb).1
  exact ⟨_, List.getElem?_eq_getElem hi, h.at_ i _ _ (List.getElem?_eq_getElem hi) hb⟩

theorem VRep.some' (h : VRep rep S V) {i : ℕ} {v : Option R[X]} (hb : V[i]? = some (some v)) : ∃ P, S[i]? = some (some P) ∧ val S i = ok P := by
  obtain ⟨a, h1, h2⟩ := h.look hb
  cases a with
  | none => cases v <;> exact h2.elim
  | some P => exact ⟨P, h1, by unfold val; rw [h1]⟩

theorem VRep.poly (h : VRep rep S V) {i : ℕ} {f : R[X]} (hb : V[i]? = some (some (some f))) :
    ∃ P, S[i]? = some (some P) ∧ val S i = ok P ∧ CPoly.PRep rep P f := by
  obtain ⟨a, h1, h2⟩ := h.look hb
  cases a with
  | none => exact h2.elim
  | some P => exact ⟨P, h1, by unfold val; rw [h1], h2⟩

theorem VRep.push (h : VRep rep S V) {a : Option (CPoly α)} {b : Option (Option R[X])} (he : ER rep a b) : VRep rep (S ++ [a]) (V ++ [b]) := by
  refine ⟨by simp [h.len], fun i x y hx hy => ?_⟩
  by_cases hi : i < S.length
  · rw [List.getElem?_append_left hi] at hx
    rw [List.getElem?_append_left (by rw [← h.len]; exact hi)] at hy
    exact h.at_ i x y hx hy
  · have : i = S.length := by
      have := (List.getElem?_eq_some_iff.1 hx).1
      simp at this; omega
    subst this
    rw [List.getElem?_concat_length] at hx
    rw [h.len, List.getElem?_concat_length] at hy
    cases hx; cases hy
    exact he

theorem VRep.set (h : VRep rep S V) {k : ℕ} {a : Option (CPoly α)} {b : Option (Option R[X])} (he : ER rep a b) :
    VRep rep (S.set k a) (V.set k b) := by
  refine ⟨by simp [h.len], fun i x y hx hy => ?_⟩
  by_cases hi : k = i
  · subst hi
    have h1 : k < S.length := by simpa using (List.getElem?_eq_some_iff.1 hx).1
    have h2 : k < V.length := by rw [← h.len]; exact h1
    rw [List.getElem?_set_self h1] at hx
    rw [List.getElem?_set_self h2] at hy
    cases hx; cases hy
    exact he
  · rw [List.getElem?_set_ne hi] at hx hy
    exact h.at_ i x y hx hy

theorem div_unique {f g q r q' r' : R[X]} (hu : IsUnit g.leadingCoeff) (h1 : f = q * g + r) (h2 : f = q' * g + r')
    (d1 : r.degree < g.degree) (d2 : r'.degree < g.degree) : q' = q ∧ r' = r := by
  have hq : q' = q := by
    by_contra hne
    have hne' : q' - q ≠ 0 := sub_ne_zero.2 hne
    have hl : (q' - q).leadingCoeff * g.leadingCoeff ≠ 0 := by
      intro h0
      exact leadingCoeff_ne_zero.2 hne' ((IsUnit.mul_left_eq_zero hu).1 h0)
    have hd := degree_mul' hl
    have he : (q' - q) * g = r - r' := by linear_combination h1 - h2
    have h3 : ((q' - q) * g).degree < g.degree := by
      rw [he]
      exact (degree_sub_le _ _).trans_lt (max_lt d1 d2)
    rw [hd] at h3
    have h4 : (0 : WithBot ℕ) ≤ (q' - q).degree := zero_le_degree_iff.2 hne'
    have h5 : g.degree ≤ (q' - q).degree + g.degree := le_add_of_nonneg_left h4
    exact absurd h3 (not_lt.2 h5)
  refine ⟨hq, ?_⟩
  subst hq
  have := h1.symm.trans h2
  exact (add_left_cancel this).symm

theorem vstep_ok (H : CoefRef U O rep ord) (h : VRep rep S V) {o : Op α} {W : Polys R} {n : ℕ} (hs : SStep rep V o W n) :
    (vstep O inv S o).Sat U fun r => VRep rep r.1 W ∧ r.2 = n := by
  have okc : ∀ {P : CPoly α} {f : R[X]}, CPoly.PRep rep P f → (CPoly.copy O P).Sat U fun r => CPoly.PRep rep r f := fun hP =>
    (CPoly.copy_sat hP).mono fun _ h => h.1
  cases hs with
  | create => exact (Sat_ok _ _).2 ⟨h.push trivial, rfl⟩
  | const hc => exact ((CPoly.const_sat H hc)).bind fun P hP => (Sat_ok _ _).2 ⟨h.push hP, rfl⟩
  | copy hi =>
    obtain ⟨A, a1, a2, a3⟩ := h.poly hi
    unfold vstep
    simp only [a2, ok_bind]
    exact (okc a3).bind fun P hP => (Sat_ok _ _).2 ⟨h.push hP, rfl⟩
  | assign hi hj hne =>
    obtain ⟨A, a1, a2⟩ := h.some' hi
    obtain ⟨B, b1, b2, b3⟩ := h.poly hj
    unfold vstep vassign
    simp only [a2, b2, ok_bind, if_neg hne]
    simp only [bind_assoc, ok_bind]
    exact (okc b3).bind fun P hR => (Sat_ok _ _).2 ⟨h.set hR, rfl⟩
  | add hi hj =>
    obtain ⟨A, a1, a2, a3⟩ := h.poly hi
    obtain ⟨B, b1, b2, b3⟩ := h.poly hj
    unfold vstep
    simp only [a2, b2, ok_bind]
    exact ((CPoly.add_sat H a3 b3)).bind fun P hP => (Sat_ok _ _).2 ⟨h.push hP, rfl⟩
  | sub hi hj =>
    obtain ⟨A, a1, a2, a3⟩ := h.poly hi
    obtain ⟨B, b1, b2, b3⟩ := h.poly hj
    unfold vstep
    simp only [a2, b2, ok_bind]
    exact ((CPoly.sub_sat H a3 b3)).bind fun P hP => (Sat_ok _ _).2 ⟨h.push hP, rfl⟩
  | mul hi hj =>
    obtain ⟨A, a1, a2, a3⟩ := h.poly hi
    obtain ⟨B, b1, b2, b3⟩ := h.poly hj
    unfold vstep
    simp only [a2, b2, ok_bind]
    exact ((CPoly.mul_sat H a3 b3)).bind fun P hP => (Sat_ok _ _).2 ⟨h.push hP, rfl⟩
  | neg hi hd =>
    obtain ⟨A, a1, a2, a3⟩ := h.poly hi
    unfold vstep
    simp only [a2, ok_bind]
    exact ((CPoly.neg_const_sat H a3 (a3.deg ▸ hd))).bind fun P hP => (Sat_ok _ _).2 ⟨h.push hP, rfl⟩
  | smul hi hc =>
    obtain ⟨A, a1, a2, a3⟩ := h.poly hi
    unfold vstep
    simp only [a2, ok_bind]
    exact ((CPoly.smul_sat H a3 hc)).bind fun P hP => (Sat_ok _ _).2 ⟨h.push hP, rfl⟩
  | set hi hc =>
    obtain ⟨A, a1, a2, a3⟩ := h.poly hi
    unfold vstep
    simp only [a2, ok_bind]
    exact ((CPoly.set_coeff_sat H a3 _ hc)).bind fun P hP => (Sat_ok _ _).2 ⟨h.set hP, rfl⟩
  | @short i j k l f g u v hi hj hk hl hd hik hil =>
    obtain ⟨A, a1, a2, a3⟩ := h.poly hi
    obtain ⟨B, b1, b2, b3⟩ := h.poly hj
    obtain ⟨K, k1, k2⟩ := h.some' hk
    obtain ⟨L, l1, l2⟩ := h.some' hl
    have hg : g ≠ 0 := by rintro rfl; simp at hd
    unfold vstep vquot
    simp only [a2, b2, k2, l2, ok_bind]
    obtain ⟨c0, e0, r0⟩ := a3.c0.rd
    rw [e0, ok_bind]
    refine ((H.sub r0 r0)).bind fun z hz => ?_
    rw [sub_self] at hz
    refine ((CPoly.eqConst_sat H b3 hz)).bind fun bz hbz => ?_
    rw [if_neg (by rw [hbz]; exact hg)]
    refine ((CPoly.eqConst_sat H a3 hz)).bind fun az haz => ?_
    have hcond : az = true ∨ A.degree < B.degree := by
      by_cases hf : f = 0
      · exact Or.inl (haz.2 hf)
      · right
        rw [degree_eq_natDegree hf, degree_eq_natDegree hg] at hd
        rw [← a3.deg, ← b3.deg]
        exact_mod_cast hd
    rw [if_pos hcond]
    refine ((CPoly.psub_sat H a3 (v := 0) (by decide))).bind fun q hq => ?_
    rw [Int.cast_zero, C_0] at hq
    refine (okc hq).bind fun q' hq' => ?_
    have h' : VRep rep (S.set k (some q')) (V.set k (some (some 0))) := h.set hq'
    obtain ⟨L', m1, m2⟩ : ∃ P, (S.set k (some q'))[l]? = some (some P) ∧ val (S.set k (some q')) l = ok P := by
      by_cases hlk : k = l
      · subst hlk
        exact ⟨q', List.getElem?_set_self (List.getElem?_eq_some_iff.1 k1).1, by
          unfold val; rw [List.getElem?_set_self (List.getElem?_eq_some_iff.1 k1).1]⟩
      · exact ⟨L, by rw [List.getElem?_set_ne hlk, l1], by unfold val; rw [List.getElem?_set_ne hlk, l1]⟩
    have hA : val (S.set k (some q')) i = ok A := by
      unfold val; rw [List.getElem?_set_ne (Ne.symm hik), a1]
    unfold vassign
    simp only [m2, hA, ok_bind, if_neg (Ne.symm hil)]
    simp only [bind_assoc, ok_bind]
    exact (okc a3).bind fun P hR => (Sat_ok _ _).2 ⟨h'.set hR, rfl⟩
  | @long i j k l f g u v q r hi hj hk hl hu hd hg hfe hr =>
    obtain ⟨A, a1, a2, a3⟩ := h.poly hi
    obtain ⟨B, b1, b2, b3⟩ := h.poly hj
    obtain ⟨K, k1, k2⟩ := h.some' hk
    obtain ⟨L, l1, l2⟩ := h.some' hl
    have hf : f ≠ 0 := by
      rintro rfl
      rw [degree_zero, le_bot_iff, degree_eq_bot] at hd
      exact hg hd
    have hle : B.degree ≤ A.degree := by rw [← a3.deg, ← b3.deg]; exact natDegree_le_natDegree hd
    unfold vstep vquot
    simp only [a2, b2, k2, l2, ok_bind]
    obtain ⟨c0, e0, r0⟩ := a3.c0.rd
    rw [e0, ok_bind]
    refine ((H.sub r0 r0)).bind fun z hz => ?_
    rw [sub_self] at hz
    refine ((CPoly.eqConst_sat H b3 hz)).bind fun bz hbz => ?_
    rw [if_neg (by rw [hbz]; exact hg)]
    refine ((CPoly.eqConst_sat H a3 hz)).bind fun az haz => ?_
    rw [if_neg (by rw [haz]; push Not; exact ⟨hf, hle⟩)]
    refine ((CPoly.longDiv_sat H a3 b3 hf hg hle hu hz)).bind fun s ⟨q', r', p1, p2, p3, p4⟩ => ?_
    obtain ⟨rfl, rfl⟩ := div_unique hu hfe p3 hr p4
    refine (okc p1).bind fun Q hQ => (okc p2).bind fun R' hR => (Sat_ok _ _).2 ⟨?_, rfl⟩
    exact (h.set (a := some Q) (b := some (some q')) hQ).set (a := some R') (b := some (some r')) hR
  | destroy hi =>
    obtain ⟨A, a1, a2⟩ := h.some' hi
    unfold vstep
    simp only [a2, ok_bind]
    exact (Sat_ok _ _).2 ⟨h.set trivial, rfl⟩

theorem vrun_ok (H : CoefRef U O rep ord) {V W : Polys R} {ops : List (Op α)} {n : ℕ} (hr : SRun rep V ops W n) :
    ∀ {S : Vals α} (k : ℕ), VRep rep S V → (vrun O inv ops S k).Sat U fun r => VRep rep r.1 W ∧ r.2 = k + n := by
  induction hr with
  | nil => exact fun k h => (Sat_ok _ _).2 ⟨h, rfl⟩
  | cons hs _ ih =>
    intro S k h
    unfold vrun
    refine (vstep_ok H h hs).bind fun r ⟨h1, h2⟩ => (ih (k + r.2) h1).mono fun r' ⟨h3, h4⟩ => ⟨h3, by omega⟩

theorem vrun_append : ∀ (ops ops' : List (Op α)) (S : Vals α) (k : ℕ),
    vrun O inv (ops ++ ops') S k = vrun O inv ops S k >>= fun r => vrun O inv ops' r.1 r.2
  | [], _, _, _ => rfl
  | o :: ops, ops', S, k => by
    simp only [List.cons_append, vrun, bind_assoc, vrun_append ops ops']

/-- Division by a polynomial of larger degree: the quotient is assigned first, the remainder is read from the dividend after that. -/
theorem vquot_short (H : CoefRef False O rep ord) (h : VRep rep S V) {i j k l : ℕ} {f g : R[X]} {u v : Option R[X]}
    (hi : V[i]? = some (some (some f))) (hj : V[j]? = some (some (some g))) (hk : V[k]? = some (some u)) (hl : V[l]? = some (some v))
    (hd : f.degree < g.degree) : ∃ q, CPoly.PRep rep q 0 ∧
      vquot O S i j k l = vassign O (S.set k (some q)) l i >>= fun S => ok (S, 0) := by
  obtain ⟨A, a1, a2, a3⟩ := h.poly hi
  obtain ⟨B, b1, b2, b3⟩ := h.poly hj
  obtain ⟨K, k1, k2⟩ := h.some' hk
  obtain ⟨L, l1, l2⟩ := h.some' hl
  have hg : g ≠ 0 := by rintro rfl; simp at hd
  unfold vquot
  simp only [a2, b2, k2, l2, ok_bind]
  obtain ⟨c0, e0, r0⟩ := a3.c0.rd
  rw [e0, ok_bind]
  obtain ⟨z, ez, hz⟩ := sat_false.1 (H.sub r0 r0)
  rw [sub_self] at hz
  rw [ez, ok_bind]
  obtain ⟨bz, eb, hbz⟩ := sat_false.1 (CPoly.eqConst_sat H b3 hz)
  rw [eb, ok_bind, if_neg (by rw [hbz]; exact hg)]
  obtain ⟨az, ea, haz⟩ := sat_false.1 (CPoly.eqConst_sat H a3 hz)
  rw [ea, ok_bind]
  have hcond : az = true ∨ A.degree < B.degree := by
    by_cases hf : f = 0
    · exact Or.inl (haz.2 hf)
    · right
      rw [degree_eq_natDegree hf, degree_eq_natDegree hg] at hd
      rw [← a3.deg, ← b3.deg]
      exact_mod_cast hd
  rw [if_pos hcond]
  obtain ⟨q, eq, hq⟩ := sat_false.1 (CPoly.psub_sat H a3 (v := 0) (by decide))
  rw [Int.cast_zero, C_0] at hq
  obtain ⟨q', eq', hq'⟩ := sat_false.1 (CPoly.copy_sat (U := False) hq)
  exact ⟨q', hq'.1, by rw [eq, ok_bind, eq', ok_bind]⟩

theorem vrep_empty : VRep rep ([] : Vals α) ([] : Polys R) := ⟨rfl, by simp⟩

theorem VRep.count (h : VRep rep S V) : S.countP Option.isSome = V.countP Option.isSome := by
  have : S.map Option.isSome = V.map Option.isSome := by
    refine List.ext_getElem (by simp [h.len]) fun i h1 h2 => ?_
    rw [List.length_map] at h1 h2
    rw [List.getElem_map, List.getElem_map]
    have := h.at_ i _ _ (List.getElem?_eq_getElem h1) (List.getElem?_eq_getElem h2)
    revert this
    rcases S[i] with _ | P <;> rcases V[i] with _ | _ | f <;> simp [ER]
  have h2 := congrArg (List.countP id) this
  rw [List.countP_map, List.countP_map] at h2
  exact h2

end PolyStore
end Spffl
