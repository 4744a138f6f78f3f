/-
f2n_poly_t over the field F2[x]/(m), m irreducible, in the sense of Proof/CFactor.
-/
import Verif.Proof.CFactor3
import Verif.Proof.CoefInst
import Mathlib.FieldTheory.Finite.Basic
import Mathlib.Algebra.Polynomial.Expand
import Mathlib.RingTheory.AdjoinRoot

namespace Spffl
open Res Polynomial
open CPoly (PRep Holds)

namespace F2nP
open F2P
variable {m : (ZMod 2)[X]}

theorem exists_red (hm0 : m ≠ 0) (x : AdjoinRoot m) : ∃ p : (ZMod 2)[X], p.degree < m.degree ∧ AdjoinRoot.mk m p = x := by
  obtain ⟨p, rfl⟩ := AdjoinRoot.mk_surjective x
  exact ⟨p % m, EuclideanDomain.mod_lt _ hm0, F2Mod.mk_mod _⟩

open Classical in
/-- the residue read as a binary number -/
noncomputable def kv (m : (ZMod 2)[X]) (x : AdjoinRoot m) : ℕ :=
  if h : ∃ p : (ZMod 2)[X], p.degree < m.degree ∧ AdjoinRoot.mk m p = x then nval h.choose else 0

theorem kv_mk {p : (ZMod 2)[X]} (hp : p.degree < m.degree) : kv m (AdjoinRoot.mk m p) = nval p := by
  have h : ∃ q : (ZMod 2)[X], q.degree < m.degree ∧ AdjoinRoot.mk m q = AdjoinRoot.mk m p := ⟨p, hp, rfl⟩
  unfold kv
  rw [dif_pos h, F2Mod.mk_inj h.choose_spec.1 hp h.choose_spec.2]

theorem kv_rep {a : F2Mod} {x} (h : F2Mod.Rep m a x) : kv m x = nval (toPoly a.residue) := by
  rw [← h.val, kv_mk h.deg]

theorem ordQ_kv (hm0 : m ≠ 0) : F2Mod.ordQ m = fun x y => kv m x < kv m y := by
  funext x y
  apply propext
  constructor
  · rintro ⟨p, q, h1, h2, rfl, rfl, h5⟩
    rwa [kv_mk h1, kv_mk h2]
  · intro h
    obtain ⟨p, h1, rfl⟩ := exists_red hm0 x
    obtain ⟨q, h2, rfl⟩ := exists_red hm0 y
    rw [kv_mk h1, kv_mk h2] at h
    exact ⟨p, q, h1, h2, rfl, rfl, h⟩

theorem nval_X_pow (d : ℕ) : nval (X ^ d : (ZMod 2)[X]) = 2 ^ d := by
  have := nval_add_pow (p := 0) (n := d) (by simp)
  rw [zero_add] at this
  rw [this]; simp [nval]

theorem nval_lt_of_degree_lt {p : (ZMod 2)[X]} (hm0 : m ≠ 0) (hp : p.degree < m.degree) : nval p < 2 ^ m.natDegree := by
  by_cases h0 : p = 0
  · subst h0; simp [nval]
  · have h1 := natDegree_lt_natDegree h0 hp
    exact (nval_lt_pow p).trans_le (Nat.pow_le_pow_right (by norm_num) (by omega))

theorem degree_lt_of_nval {p : (ZMod 2)[X]} (hm0 : m ≠ 0) (hp : nval p < 2 ^ m.natDegree) : p.degree < m.degree := by
  by_cases h0 : p = 0
  · subst h0; rw [degree_zero, bot_lt_iff_ne_bot, ne_eq, degree_eq_bot]; exact hm0
  · rw [degree_eq_natDegree h0, degree_eq_natDegree hm0]
    have := (Nat.pow_lt_pow_iff_right (by norm_num : 1 < 2)).mp ((pow_le_nval h0).trans_lt hp)
    exact_mod_cast this

theorem natCard_eq (hm0 : m ≠ 0) : Nat.card (AdjoinRoot m) = 2 ^ m.natDegree := by
  have e : {g : (ZMod 2)[X] // g.degree < m.natDegree} ≃ AdjoinRoot m := by
    refine Equiv.ofBijective (fun g => AdjoinRoot.mk m g.1) ⟨fun a b h => ?_, fun x => ?_⟩
    · refine Subtype.ext (F2Mod.mk_inj ?_ ?_ h)
      · rw [degree_eq_natDegree hm0]; exact a.2
      · rw [degree_eq_natDegree hm0]; exact b.2
    · obtain ⟨p, h1, h2⟩ := exists_red hm0 x
      exact ⟨⟨p, by rw [← degree_eq_natDegree hm0]; exact h1⟩, h2⟩
  rw [← Nat.card_congr e, card_degree_lt, ZMod.card]

variable [hm : Fact (Irreducible m)]

theorem card_eq [Fintype (AdjoinRoot m)] : Fintype.card (AdjoinRoot m) = 2 ^ m.natDegree := by
  rw [← Nat.card_eq_fintype_card, natCard_eq hm.out.ne_zero]

instance charP2 : CharP (AdjoinRoot m) 2 :=
  charP_of_injective_algebraMap (algebraMap (ZMod 2) (AdjoinRoot m)).injective 2

theorem digits [Fintype (AdjoinRoot m)] : Digits (Fintype.card (AdjoinRoot m)) (kv m) where
  zero := by
    have hm0 := hm.out.ne_zero
    rw [← map_zero (AdjoinRoot.mk m), kv_mk (by rw [degree_zero, bot_lt_iff_ne_bot, ne_eq, degree_eq_bot]; exact hm0)]
    simp [nval]
  lt x := by
    have hm0 := hm.out.ne_zero
    rw [card_eq]
    obtain ⟨p, h1, rfl⟩ := exists_red hm0 x
    rw [kv_mk h1]; exact nval_lt_of_degree_lt hm0 h1
  inj x y h := by
    have hm0 := hm.out.ne_zero
    obtain ⟨p, h1, rfl⟩ := exists_red hm0 x
    obtain ⟨q, h2, rfl⟩ := exists_red hm0 y
    rw [kv_mk h1, kv_mk h2] at h
    rw [nval_inj h]

theorem kv_one : kv m 1 = 1 := by
  have hm0 := hm.out.ne_zero
  have h1 : nval (1 : (ZMod 2)[X]) = 1 := by simpa using nval_X_pow 0
  rw [← map_one (AdjoinRoot.mk m), kv_mk, h1]
  rw [degree_one, degree_eq_natDegree hm0]
  exact_mod_cast hm.out.natDegree_pos

theorem mk0 {mm : F2P} (hc : Canon mm) (ht : toPoly mm = m) : (F2Mod.mk' F2P.zero mm).Sat False (fun r => F2Mod.Rep m r 0) := by
  have := ((F2Mod.mk'_ok canon_zero.good hc ht hm.out.ne_zero).mono fun r h => h.1).sat (U := False)
  rwa [toPoly_zero, map_zero] at this

theorem mk1 {mm : F2P} (hc : Canon mm) (ht : toPoly mm = m) : (F2Mod.mk' F2P.one mm).Sat False (fun r => F2Mod.Rep m r 1) := by
  have := ((F2Mod.mk'_ok canon_one.good hc ht hm.out.ne_zero).mono fun r h => h.1).sat (U := False)
  rwa [toPoly_one, map_one] at this

theorem eq_invalid {c : F2Mod} (hc : F2Mod.Rep m c 0) : F2Mod.cops.eq c ⟨F2P.zero, F2P.one⟩ = ok false := by
  show F2Mod.eq c ⟨F2P.zero, F2P.one⟩ = ok false
  unfold F2Mod.eq
  have : toPoly c.modulus ≠ toPoly F2P.one := by
    rw [hc.hm, toPoly_one]
    intro h
    exact hm.out.not_isUnit (h ▸ isUnit_one)
  rw [F2Mod.ne_ok hc.cr.ne_nil canon_zero.ne_nil, ok_bind, F2Mod.ne_ok hc.cm.ne_nil canon_one.ne_nil, ok_bind]
  simp only [this, decide_false, Bool.not_false, if_true, ite_self]

theorem psub_invalid : F2Mod.cops.psub invalid 0 = ok ⟨F2P.zero, F2P.one⟩ := by decide +kernel

/-! ### square root -/

theorem sqrtLoop_sat {a : CPoly F2Mod} {f : (AdjoinRoot m)[X]} (ha : PRep (F2Mod.Rep m) a f) {zero : F2Mod} (hz : F2Mod.Rep m zero 0)
    (hf : ∀ t, ¬ 2 ∣ t → f.coeff t = 0) {pw : ℕ} (hpw0 : pw ≠ 0) (hpw : (pw : Int) ≤ INT_MAX) :
    ∀ (k di : ℕ) (cs : List F2Mod), di + k = a.degree + 2 → di ≤ a.degree + 1 → cs.length = a.degree + 1 →
      (∀ j, j < di → At cs j (fun e => F2Mod.Rep m e (f.coeff (j * 2) ^ pw))) → (∀ j, di ≤ j → j < a.degree + 1 → At cs j (fun e => F2Mod.Rep m e 0)) →
      (sqrtLoop a zero pw k (di * 2) di cs).Sat False (fun r => ∃ cs, r = some cs ∧ ∀ j, j < a.degree + 1 → At cs j (fun e => F2Mod.Rep m e (f.coeff (j * 2) ^ pw)))
  | 0, di, cs, h1, h2, _, _, _ => by omega
  | k + 1, di, cs, h1, h2, hl, hlow, hhigh => by
    classical
    have fin : ∀ (di : ℕ) (cs : List F2Mod), a.degree < di * 2 →
        (∀ j, j < di → At cs j (fun e => F2Mod.Rep m e (f.coeff (j * 2) ^ pw))) → (∀ j, di ≤ j → j < a.degree + 1 → At cs j (fun e => F2Mod.Rep m e 0)) →
        ∀ j, j < a.degree + 1 → At cs j (fun e => F2Mod.Rep m e (f.coeff (j * 2) ^ pw)) := by
      intro di cs hend hlow hhigh j hj
      rcases Nat.lt_or_ge j di with h | h
      · exact hlow j h
      · rw [coeff_eq_zero_of_natDegree_lt (by rw [ha.deg]; omega), zero_pow hpw0]
        exact hhigh j h hj
    unfold sqrtLoop
    split
    · rename_i hend
      rw [Sat_ok]
      exact ⟨cs, rfl, fin di cs hend hlow hhigh⟩
    · rename_i hle
      refine (rd_sat (ha.co (di * 2) (by omega))).bind fun c hc => (F2Mod.exp_ok hc hpw (Or.inl hpw0)).sat.bind fun r hr => ?_
      rw [wr_ok (by omega), ok_bind]
      have hlow' : ∀ j, j < di + 1 → At (cs.set di r) j (fun e => F2Mod.Rep m e (f.coeff (j * 2) ^ pw)) := fun j hj => by
        by_cases e : di = j
        · subst e; exact at_set_self (by omega) hr
        · exact (hlow j (by omega)).congr (List.getElem?_set_ne e)
      have hhigh' : ∀ j, di + 1 ≤ j → j < a.degree + 1 → At (cs.set di r) j (fun e => F2Mod.Rep m e 0) := fun j hj1 hj2 =>
        (hhigh j (by omega) hj2).congr (List.getElem?_set_ne (by omega))
      split
      · rename_i hend
        rw [Sat_ok]
        exact ⟨_, rfl, fin (di + 1) _ (by omega) hlow' hhigh'⟩
      · rename_i hle2
        obtain ⟨c', hc', hr'⟩ := (ha.co (di * 2 + 1) (by omega)).rd
        rw [hc', ok_bind, F2Mod.eq_ok hr' hz, ok_bind, hf _ (by omega)]
        simp only [decide_true, if_true]
        rw [show di * 2 + 2 = (di + 1) * 2 by ring]
        exact sqrtLoop_sat ha hz hf hpw0 hpw k (di + 1) _ (by omega) (by omega) (by rw [List.length_set, hl]) hlow' hhigh'

theorem square_root_sat [Fintype (AdjoinRoot m)] (hd31 : m.natDegree ≤ 31) {a : CPoly F2Mod} {f : (AdjoinRoot m)[X]} (ha : PRep (F2Mod.Rep m) a f)
    (hpos : 0 < f.natDegree) (hd : derivative f = 0) :
    (square_root a).Sat False (fun r => ∃ s g, r = some s ∧ PRep (F2Mod.Rep m) s g ∧ g ^ 2 = f) := by
  have hm0 := hm.out.ne_zero
  have hmp := hm.out.natDegree_pos
  have H := F2Mod.cops_ref hm0
  have hexp := expand_contract 2 hd (by norm_num)
  have hf : ∀ t, ¬ 2 ∣ t → f.coeff t = 0 := by
    intro t ht
    rw [← hexp, coeff_expand (by norm_num), if_neg ht]
  have hcon : ∀ j, (contract 2 f).coeff j = f.coeff (j * 2) := fun j => coeff_contract (by norm_num) f j
  set n := m.natDegree with hn
  unfold square_root
  refine (rd_sat ha.c0).bind fun c0 hc0 => ?_
  refine (mk0 hc0.cm hc0.hm).bind fun zero hz => ?_
  rw [find_degree_ok, ok_bind, hc0.hm, ← hn, show isub (n : Int) 1 = ok ((n - 1 : ℕ) : Int) by
    rw [show isub (n : Int) 1 = chk ((n : Int) - 1) from rfl, chk_ok (by unfold InInt; omega)]; congr 1; omega, ok_bind, ishl_one (by omega), ok_bind]
  rw [ha.deg] at hpos
  refine (CFac.dflt_grow psub_invalid (fun c hc => eq_invalid hc) hz hpos).bind fun out hout => ?_
  obtain ⟨o1, o2, o3⟩ := hout
  refine (CFac.zero_fill hz o2 o3).bind fun cs hcs => ?_
  have hpw : ((2 ^ (n - 1) : ℕ) : Int) ≤ INT_MAX := by
    have : 2 ^ (n - 1) ≤ 2 ^ 30 := Nat.pow_le_pow_right (by norm_num) (by omega)
    unfold INT_MAX; omega
  have := sqrtLoop_sat ha hz hf (pw := 2 ^ (n - 1)) (Nat.two_pow_pos _).ne' hpw (a.degree + 2) 0 cs (by omega) (by omega) hcs.1 (fun j hj => by omega) (fun j _ hj => hcs.2 j hj)
  rw [zero_mul] at this
  push_cast at this
  refine this.bind fun r hr => ?_
  obtain ⟨ds, rfl, hds⟩ := hr
  dsimp only
  rw [o1]
  refine (CPoly.recompute_sat H (d := a.degree) (cs := ds) (f := (contract 2 f).map (iterateFrobenius (AdjoinRoot m) 2 (n - 1))) (fun j hj => ?_) ?_).bind fun s hs => ?_
  · rw [coeff_map, hcon, iterateFrobenius_def]; exact hds j hj
  · rw [natDegree_le_iff_coeff_eq_zero]
    intro j hj
    rw [coeff_map, hcon, coeff_eq_zero_of_natDegree_lt, map_zero]
    rw [ha.deg]; omega
  · rw [Sat_ok]
    refine ⟨s, _, rfl, hs, ?_⟩
    rw [← map_frobenius_expand 2, ← map_expand, map_map]
    have hid : (frobenius (AdjoinRoot m) 2).comp (iterateFrobenius (AdjoinRoot m) 2 (n - 1)) = RingHom.id _ := by
      refine RingHom.ext fun x => ?_
      show frobenius _ 2 (iterateFrobenius _ 2 (n - 1) _) = _
      rw [iterateFrobenius_def, frobenius_def, ← pow_mul, ← pow_succ, show n - 1 + 1 = n by omega]
      have := FiniteField.pow_card x
      rw [card_eq, ← hn] at this
      exact this
    rw [hid, map_id, hexp]

/-! ### increment -/

theorem incrLoop_sat [Fintype (AdjoinRoot m)] {f : (AdjoinRoot m)[X]} {mm mx : F2P} {zero : F2Mod} (hmc : Canon mm) (hmt : toPoly mm = m)
    (hxc : Canon mx) (hxt : toPoly mx = X ^ m.natDegree) (hz : F2Mod.Rep m zero 0) :
    ∀ k i cs, i + k = f.natDegree + 1 → CFac.IncrInv (F2Mod.Rep m) (kv m) (Fintype.card (AdjoinRoot m)) f i cs →
      (incrLoop mm mx zero k i cs).Sat False (CFac.IncrPost (F2Mod.Rep m) (kv m) (Fintype.card (AdjoinRoot m)) f)
  | 0, i, cs, hk, h => by
    unfold incrLoop
    rw [Sat_ok]
    obtain rfl : i = f.natDegree + 1 := by omega
    exact CFac.incr_end digits h
  | k + 1, i, cs, hk, h => by
    have hm0 := hm.out.ne_zero
    unfold incrLoop
    have hat := h.high i le_rfl (by omega)
    have hlt := hat.lt
    refine (rd_sat hat).bind fun c hc => ?_
    have hkv := kv_rep hc
    obtain ⟨r, e1, e2, e3⟩ := increment_ok hc.cr
    rw [e1, ok_bind, F2Mod.ne_ok e3.ne_nil hxc.ne_nil, ok_bind]
    have hcl := nval_lt_of_degree_lt hm0 hc.deg
    by_cases hr : toPoly r = toPoly mx
    · simp only [hr, decide_true, Bool.not_true, Bool.false_eq_true, if_false]
      rw [wr_ok hlt, ok_bind]
      refine incrLoop_sat hmc hmt hxc hxt hz k (i + 1) _ (by omega) (CFac.incr_go h (by omega) hz ?_)
      rw [hr, hxt, nval_X_pow] at e2
      rw [hkv, card_eq]; omega
    · simp only [hr, decide_false, Bool.not_false, if_true]
      refine (F2Mod.mk'_ok e3.good hmc hmt hm0).sat.bind fun d hd => ?_
      rw [wr_ok hlt, ok_bind, Sat_ok]
      refine CFac.incr_stop digits h (by omega) hd.1 ?_
      have hne : nval (toPoly r) ≠ 2 ^ m.natDegree := fun hh => hr (by rw [hxt]; exact nval_inj (by rw [hh, nval_X_pow]))
      rw [kv_mk (degree_lt_of_nval hm0 (by omega)), hkv, e2]

theorem increment_sat [Fintype (AdjoinRoot m)] {a : CPoly F2Mod} {f : (AdjoinRoot m)[X]} (ha : PRep (F2Mod.Rep m) a f) :
    (increment a).Sat False (fun r => ∃ g, PRep (F2Mod.Rep m) r g ∧
      polyKey (Fintype.card (AdjoinRoot m)) (kv m) g = polyKey (Fintype.card (AdjoinRoot m)) (kv m) f + 1) := by
  have hm0 := hm.out.ne_zero
  unfold increment
  refine (rd_sat ha.c0).bind fun c0 hc0 => ?_
  rw [find_degree_ok, ok_bind, hc0.hm]
  obtain ⟨mx, e1, e2, e3⟩ := set_bit_new (ps := F2P.zero) canon_zero.ne_nil (n := m.natDegree) (by
    have := coeff_toPoly F2P.zero m.natDegree
    rw [toPoly_zero] at this
    cases h : bitAt F2P.zero m.natDegree with
    | false => rfl
    | true => rw [h] at this; simp at this)
  rw [toPoly_zero, zero_add] at e2
  rw [e1, ok_bind]
  refine (mk0 hc0.cm hc0.hm).bind fun zero hz => (mk1 hc0.cm hc0.hm).bind fun one h1 => ?_
  refine (incrLoop_sat hc0.cm hc0.hm (e3 canon_zero) e2 hz (a.degree + 1) 0 a.coeffs (by rw [ha.deg]; omega) ⟨fun j hj => by omega, fun j _ hj => ha.co j (by rw [← ha.deg]; exact hj),
    fun j hj => by omega⟩).bind fun s hs => ?_
  exact CFac.incr_finish (F2Mod.cops_ref hm0) digits kv_one ha h1 hs

/-! ### the context -/

theorem nval_base (c : ℕ) (hc : c < 2 ^ 64) : nval (toPoly (from_base_rep (BitVec.ofInt 64 c))) = c := by
  rw [nval_toPoly]
  simp only [from_base_rep, val]
  rw [BitVec.ofInt_natCast, BitVec.toNat_ofNat, Nat.mod_eq_of_lt hc]; rfl

theorem fref [Fintype (AdjoinRoot m)] (hd30 : m.natDegree ≤ 30) :
    FRef ctx (F2Mod.Rep m) (kv m) (fun n => AdjoinRoot.mk m (toPoly (from_base_rep (BitVec.ofInt 64 n)))) 2 where
  ref := by
    have := F2Mod.cops_ref hm.out.ne_zero
    rwa [ordQ_kv hm.out.ne_zero] at this
  dig := digits
  mulNat _ h := F2Mod.cops_mulNat h _
  isOne := by
    intro c x h
    show (F2P.eqInt c.residue 1).Sat False _
    rw [eqInt_ok h.cr.ne_nil]; trivial
  q := by
    intro a f ha
    obtain ⟨c, hc, hr⟩ := ha.c0.rd
    show (do let c ← rd a.coeffs 0; let d ← F2P.find_degree c.modulus; ishl 1 d : Res Int) = _
    rw [hc, ok_bind, find_degree_ok, ok_bind, hr.hm, ishl_one (by omega), card_eq]
    push_cast; rfl
  cst := by
    intro a f ha c hc
    refine (rd_sat ha.c0).bind fun c0 hc0 => ?_
    refine (F2Mod.mk'_ok (canon_single _).good hc0.cm hc0.hm hm.out.ne_zero).sat.bind fun r hr => ?_
    exact CPoly.const_sat (F2Mod.cops_ref hm.out.ne_zero) hr.1
  surj y := by
    have hm0 := hm.out.ne_zero
    obtain ⟨p, h1, rfl⟩ := exists_red hm0 y
    have hlt := nval_lt_of_degree_lt hm0 h1
    have h30 : 2 ^ m.natDegree ≤ 2 ^ 30 := Nat.pow_le_pow_right (by norm_num) hd30
    refine ⟨nval p, by rw [card_eq]; exact hlt, ?_⟩
    rw [nval_inj (nval_base (nval p) (by omega))]
  root ha h1 h2 := square_root_sat (by omega) ha h1 h2
  rexp _ := rfl
  frob := frobenius_inj (AdjoinRoot m) 2
  one := kv_one
  incr ha := increment_sat ha
  p2 := le_rfl
  pmax := by decide
  inv := ⟨_, psub_invalid, fun c hc => eq_invalid hc⟩

end F2nP
end Spffl
