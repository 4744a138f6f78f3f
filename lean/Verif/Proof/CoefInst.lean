/-
intmod_t and f2_polymod_t refine the rings `ZMod m` and `F2[x]/(m)` in the sense needed by the polynomial
classes.
-/
import Verif.Model.CoefInst
import Verif.Proof.CPoly
import Verif.Proof.IntMod
import Verif.Proof.F2PolyMod

namespace Spffl
open Res Polynomial

namespace IntMod

theorem cops_ref {m : ℕ} (hm2 : 2 ≤ m) (hm : m ≤ 46341) :
    CoefRef False IntMod.cops (Rep m) (fun x y => x.val < y.val) where
  add h h' := (add_ok (by omega) h h').sat
  sub h h' := (sub_ok (by omega) h h').sat
  mul h h' := (mul_ok hm h h').sat
  neg h := (neg_ok (by unfold InInt; omega) h).sat
  div := by
    intro a b x y z h h' hz
    refine Sat.bind (div_ok hm2 hm cacheOk_init h h' (IsUnit.of_mul_eq_one _ hz)).sat ?_
    rintro r ⟨⟨q, hq, e⟩, _⟩
    rw [Sat_ok]
    have : q = x * z := by rw [← e, mul_assoc, hz, mul_one]
    exact this ▸ hq
  div_throw := by
    intro a b x y h h' hu
    left
    show (do let r ← IntMod.div Cache.init a b; ok r.1) = throw
    rw [div_throw hm2 hm cacheOk_init h h' hu]; rfl
  eq := by
    intro a b x y h h'
    show (IntMod.eq a b).Sat _ _
    rw [eq_ok h h', Sat_ok]; simp
  lt := by
    intro a b x y h h'
    show (IntMod.lt a b).Sat _ _
    unfold IntMod.lt
    rw [check_moduli_ok h h', ok_bind, Sat_ok, decide_eq_true_iff, val_lt_iff h h']
  gt := by
    intro a b x y h h'
    show (do IntMod.check_moduli a b; ok (decide (b.residue < a.residue)) : Res Bool).Sat _ _
    rw [check_moduli_ok h h', ok_bind, Sat_ok, decide_eq_true_iff, val_lt_iff h' h]
  psub := by
    intro a x v hv h
    show (IntMod.mk' v a.modulus).Sat _ _
    rw [h.1]
    exact (mk'_ok h.pos (by unfold InInt; omega) hv).sat
  recip := by
    intro a x h _
    refine Sat.bind (recip_ok hm2 hm cacheOk_init h).sat ?_
    rintro ⟨o, c⟩ ⟨ho, _⟩
    rw [Sat_ok]
    cases o <;> exact ho
  isZero := by
    intro a x h
    show (ok (a.residue == 0) : Res Bool).Sat _ _
    rw [Sat_ok, beq_iff_eq, ← h.2.2.2]
    have h1 := h.2.1
    have h2 := h.2.2.1
    rw [ZMod.intCast_zmod_eq_zero_iff_dvd]
    exact ⟨fun e => by rw [e]; exact dvd_zero _, fun e => Int.eq_zero_of_dvd_of_nonneg_of_lt h1 h2 e⟩
  irrefl x := lt_irrefl _
  asymm x y := lt_asymm
  total x y := by
    haveI : NeZero m := ⟨by omega⟩
    rcases lt_trichotomy x.val y.val with h | h | h
    · exact Or.inr (Or.inl h)
    · exact Or.inl (ZMod.val_injective m h)
    · exact Or.inr (Or.inr h)
where
  val_lt_iff {m : ℕ} {a b : IntMod} {x y : ZMod m} (h : Rep m a x) (h' : Rep m b y) :
      a.residue < b.residue ↔ x.val < y.val := by
    have key : ∀ {a : IntMod} {x : ZMod m}, Rep m a x → a.residue = x.val := by
      intro a x h
      haveI : NeZero m := ⟨by have := h.pos; omega⟩
      have h1 := h.2.1
      have h2 := h.2.2.1
      rw [← h.2.2.2, ZMod.val_intCast, Int.emod_eq_of_lt h1 h2]
    rw [key h, key h']; omega

theorem cops_mulNat {m : ℕ} (hm : m ≤ 46341) {a : IntMod} {x : ZMod m} (h : Rep m a x) {n : ℕ} (hn : InInt n) :
    (IntMod.cops.mulNat a n).Sat False (fun r => Rep m r (x * (n : ZMod m))) := by
  show (do let k ← IntMod.mk' n a.modulus; IntMod.mul a k).Sat _ _
  rw [h.1]
  refine (mk'_ok h.pos (by unfold InInt; omega) hn).sat.bind fun k hk => ?_
  rw [Int.cast_natCast] at hk
  exact (mul_ok hm h hk).sat

end IntMod

namespace F2Mod
open F2P

/-- the order of `operator<`: by the residue read as a binary number -/
def ordQ (m : (ZMod 2)[X]) (x y : AdjoinRoot m) : Prop :=
  ∃ p q : (ZMod 2)[X], p.degree < m.degree ∧ q.degree < m.degree ∧ AdjoinRoot.mk m p = x ∧ AdjoinRoot.mk m q = y ∧
    nval p < nval q

theorem mk_inj {m p q : (ZMod 2)[X]} (hp : p.degree < m.degree) (hq : q.degree < m.degree)
    (h : AdjoinRoot.mk m p = AdjoinRoot.mk m q) : p = q := by
  rw [AdjoinRoot.mk_eq_mk] at h
  by_contra hne
  exact hne (sub_eq_zero.mp (eq_zero_of_dvd_of_degree_lt h (lt_of_le_of_lt (degree_sub_le _ _) (max_lt hp hq))))

theorem ordQ_iff {m : (ZMod 2)[X]} {a b : F2Mod} {x y} (ha : Rep m a x) (hb : Rep m b y) :
    ordQ m x y ↔ nval (toPoly a.residue) < nval (toPoly b.residue) := by
  constructor
  · rintro ⟨p, q, h1, h2, h3, h4, h5⟩
    rwa [mk_inj ha.deg h1 (ha.val.trans h3.symm), mk_inj hb.deg h2 (hb.val.trans h4.symm)]
  · intro h
    exact ⟨_, _, ha.deg, hb.deg, ha.val, hb.val, h⟩

theorem canon_ofInt (v : Int) : Canon (F2P.ofInt v) := by
  rcases Int.emod_two_eq_zero_or_one v with h | h
  · have : F2P.ofInt v = F2P.zero := by unfold F2P.zero F2P.ofInt; rw [h]; rfl
    rw [this]; exact canon_zero
  · have : F2P.ofInt v = F2P.one := by unfold F2P.one F2P.ofInt; rw [h]; rfl
    rw [this]; exact canon_one

theorem gt_ok {a b : F2P} (ha : a ≠ []) (hb : b ≠ []) :
    F2P.gt a b = ok (decide (nval (toPoly b) < nval (toPoly a))) := by
  unfold F2P.gt
  rw [cmp_ok ha hb, ok_bind]
  unfold dir
  congr 1
  rw [decide_eq_decide]
  split <;> [skip; split] <;> omega

theorem cops_ref {m : (ZMod 2)[X]} (hm0 : m ≠ 0) : CoefRef False F2Mod.cops (Rep m) (ordQ m) where
  add h h' := (add_ok h h').sat
  sub h h' := (sub_ok h h').sat
  mul h h' := (mul_ok h h').sat
  neg h := (neg_ok h).sat
  div h h' hz := (div_ok h h' hz).sat
  div_throw h h' hu := Or.inl (div_throw h h' hu)
  eq := by
    classical
    intro a b x y h h'
    show (F2Mod.eq a b).Sat _ _
    rw [eq_ok h h', Sat_ok]; simp
  lt := by
    intro a b x y h h'
    show (F2Mod.lt a b).Sat _ _
    unfold F2Mod.lt
    rw [check_ok h h', ok_bind, lt_ok h.cr.ne_nil h'.cr.ne_nil, Sat_ok, decide_eq_true_iff, ordQ_iff h h']
  gt := by
    intro a b x y h h'
    show (F2Mod.gt a b).Sat _ _
    unfold F2Mod.gt
    rw [check_ok h h', ok_bind, gt_ok h.cr.ne_nil h'.cr.ne_nil, Sat_ok, decide_eq_true_iff, ordQ_iff h' h]
  psub := by
    intro a x v _ h
    refine (psub_ok h v).sat
  recip h _ := (recip_ok h).sat.mono fun r hr => by cases r <;> exact hr
  isZero := by
    intro a x h
    show (F2P.eqInt a.residue 0).Sat _ _
    rw [eqZero_ok h.cr.ne_nil, Sat_ok, decide_eq_true_iff, ← h.val]
    constructor
    · intro e; rw [e, map_zero]
    · intro e
      rw [AdjoinRoot.mk_eq_zero] at e
      exact eq_zero_of_dvd_of_degree_lt e h.deg
  irrefl x := by
    rintro ⟨p, q, h1, h2, h3, h4, h5⟩
    rw [mk_inj h1 h2 (h3.trans h4.symm)] at h5
    exact lt_irrefl _ h5
  asymm x y := by
    rintro ⟨p, q, h1, h2, h3, h4, h5⟩ ⟨p', q', h1', h2', h3', h4', h5'⟩
    rw [mk_inj h1' h2 (h3'.trans h4.symm), mk_inj h2' h1 (h4'.trans h3.symm)] at h5'
    omega
  total x y := by
    obtain ⟨p, rfl⟩ := AdjoinRoot.mk_surjective x
    obtain ⟨q, rfl⟩ := AdjoinRoot.mk_surjective y
    have d1 : (p % m).degree < m.degree := EuclideanDomain.mod_lt _ hm0
    have d2 : (q % m).degree < m.degree := EuclideanDomain.mod_lt _ hm0
    rcases lt_trichotomy (nval (p % m)) (nval (q % m)) with h | h | h
    · exact Or.inr (Or.inl ⟨_, _, d1, d2, mk_mod _, mk_mod _, h⟩)
    · left; rw [← mk_mod p, nval_inj h, mk_mod]
    · exact Or.inr (Or.inr ⟨_, _, d2, d1, mk_mod _, mk_mod _, h⟩)
where
  psub_ok {m : (ZMod 2)[X]} {a : F2Mod} {x} (h : Rep m a x) (v : Int) :
      (prime_subfield_element v a.modulus).Ok (fun r => Rep m r (v : AdjoinRoot m)) := by
    unfold prime_subfield_element
    refine (mk'_ok (canon_ofInt v).good h.cm h.hm h.m_ne).mono fun r hr => ?_
    have := hr.1
    rw [toPoly_ofInt] at this
    have e : (C (v : ZMod 2) : (ZMod 2)[X]) = ((v : Int) : (ZMod 2)[X]) := by simp
    rwa [e, map_intCast] at this

theorem cops_mulNat {m : (ZMod 2)[X]} {a : F2Mod} {x} (h : Rep m a x) (n : ℕ) :
    (F2Mod.cops.mulNat a n).Sat False (fun r => Rep m r (x * (n : AdjoinRoot m))) := by
  show (do let k ← F2Mod.mk' (F2P.ofInt n) a.modulus; F2Mod.mul a k).Sat _ _
  refine (cops_ref.psub_ok h n).sat.bind fun k hk => ?_
  rw [Int.cast_natCast] at hk
  exact (mul_ok h hk).sat

end F2Mod
end Spffl
