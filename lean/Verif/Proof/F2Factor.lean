/-
Factorization of polynomials over F2.
-/
import Verif.Model.F2Factor
import Verif.Base.Berlekamp
import Verif.Proof.F2Poly2
import Verif.Proof.F2PolyMod
import Verif.Proof.FacPos
import Verif.Proof.BitMatrix
import Mathlib.FieldTheory.Separable

set_option linter.unusedSectionVars false

namespace Spffl
open Res Polynomial
namespace F2P

/-- an f2_poly_t in canonical form and the polynomial it holds -/
def PRep (a : F2P) (x : (ZMod 2)[X]) : Prop := Canon a ∧ toPoly a = x

theorem facRef : FacRef eltOps PRep (fun x => x ≠ 0) nval where
  eq_ok := by
    rintro a b x y ⟨ha, rfl⟩ ⟨hb, rfl⟩
    exact ⟨_, eq_ok ha.ne_nil hb.ne_nil, by simp⟩
  lt_ok := by
    rintro a b x y ⟨ha, rfl⟩ ⟨hb, rfl⟩
    exact ⟨_, lt_ok ha.ne_nil hb.ne_nil, by simp⟩
  key_inj := fun _ _ => nval_inj
  mul_ok := by
    rintro a b x y ⟨ha, rfl⟩ ⟨hb, rfl⟩ hD
    exact (mul_canon ha hD).mono fun r h => ⟨h.2, h.1⟩
  sub_self := by
    rintro a x ⟨ha, rfl⟩
    exact (sub_ok ha.ne_nil).mono fun r h => ⟨h.2, by rw [h.1, _root_.sub_self]⟩
  div_self := by
    rintro a x ⟨ha, rfl⟩ hx
    exact (div_ok ha.good ha.ne_nil hx).mono fun r h => ⟨h.2, by rw [h.1, EuclideanDomain.div_self hx]⟩
  D_dvd := by
    rintro x y hy h rfl
    exact hy (zero_dvd_iff.mp h)

theorem exists_prep (x : (ZMod 2)[X]) : ∃ a, PRep a x := exists_canon x

variable {n : ℕ} {U : Prop}

/-! ### the Berlekamp matrix -/

theorem b2_eq_coeff (a : F2P) (t : ℕ) : b2 (bitAt a t) = (toPoly a).coeff t := by
  rw [coeff_toPoly]; cases bitAt a t <;> simp [b2]

theorem ite_bit {b : Bool} : (b2 b : ZMod 2) = if b then 1 else 0 := by cases b <;> simp [b2]

theorem from_vector_ok {v : BV} {x : Fin n → ZMod 2} (h : BV.Rep v x) :
    (from_vector v n).Ok (fun r => PRep r (ofVec x)) := by
  unfold from_vector
  have hlow : ∀ t (ht : t < n), (ofVec x).coeff t = x ⟨n - 1 - t, by omega⟩ := by
    intro t ht
    rw [← coeff_ofVec x]; congr 1; simp; omega
  refine (forUp_ok (fun i f => Canon f ∧ ∀ t, (toPoly f).coeff t = if t < i then (ofVec x).coeff t else 0)
    (Nat.zero_le n) ⟨canon_zero, by simp⟩ ?_).mono fun r hr => ⟨hr.1, ?_⟩
  · intro i f _ hi ⟨h1, h2⟩
    obtain ⟨b, hb, hbx⟩ := BV.get_rep h (i := n - 1 - i) (by omega)
    rw [hb, ok_bind]
    cases b with
    | true =>
      rw [if_pos rfl]
      have hbit : bitAt f i = false := by
        have := h2 i; rw [if_neg (by omega), coeff_toPoly] at this
        cases hh : bitAt f i with
        | false => rfl
        | true => rw [hh] at this; simp at this
      refine (set_bit_new h1.ne_nil hbit).mono fun r hr => ⟨hr.2 h1, fun t => ?_⟩
      rw [hr.1, coeff_add, h2, coeff_X_pow]
      rcases lt_trichotomy t i with hlt | rfl | hgt
      · rw [if_pos hlt, if_neg (by omega), if_pos (by omega), add_zero]
      · rw [if_neg (by omega), if_pos rfl, if_pos (by omega), hlow _ hi, ← hbx]; simp [b2]
      · rw [if_neg (by omega), if_neg (by omega), if_neg (by omega), add_zero]
    | false =>
      simp only [Bool.false_eq_true, if_false, Ok_ok]
      refine ⟨h1, fun t => ?_⟩
      rw [h2]
      rcases lt_trichotomy t i with hlt | rfl | hgt
      · rw [if_pos hlt, if_pos (by omega)]
      · rw [if_neg (by omega), if_pos (by omega), hlow _ hi, ← hbx]; simp [b2]
      · rw [if_neg (by omega), if_neg (by omega)]
  · ext t
    rw [hr.2]
    split
    · rfl
    · rw [coeff_eq_zero_of_degree_lt ((degree_ofVec x).trans_le (by exact_mod_cast (by omega : n ≤ t)))]

theorem toPoly_x : toPoly (ofInt2 1 0) = X := by
  ext t
  have h0 : ofInt2 1 0 = [2#64] := by decide
  rw [coeff_toPoly, h0, toPoly_single, coeff_X]
  by_cases ht : t < 64
  · have : ∀ t : Fin 64, (2#64).getLsbD t.1 = decide (1 = t.1) := by decide
    rw [this ⟨t, ht⟩]; simp [ht]
  · simp [ht]; omega

theorem canon_x : Canon (ofInt2 1 0) := by
  have h0 : ofInt2 1 0 = [2#64] := by decide
  rw [h0]; exact canon_single _

/-- powers of `x^2` modulo `f` -/
theorem mulmod_ok {f a b : F2P} (ha : Canon a) (hfn : f ≠ []) (hf : toPoly f ≠ 0) :
    ((do let t ← mul a b; mod t f) : Res F2P).Ok (fun r => PRep r (toPoly a * toPoly b % toPoly f)) := by
  refine (mul_ok ha).bind fun t ht => ?_
  exact (mod_ok ht.2 hfn hf).mono fun r hr => ⟨hr.2, by rw [hr.1, ht.1]⟩

theorem fillB_ok {f x2 : F2P} (hfc : Canon f) (hf : toPoly f ≠ 0) (hn : (toPoly f).natDegree = n) (hx : PRep x2 (X ^ 2 % toPoly f)) (h2 : 2 ≤ n)
    {BI : BM} {M0 : Matrix (Fin n) (Fin n) (ZMod 2)} (hB : BM.Rep BI M0) :
    (fillB f x2 n BI).Ok (fun s => BM.Rep s.1 (Matrix.of fun a b : Fin n => (((X ^ 2) ^ (n - 1 - (b : ℕ)) : (ZMod 2)[X]) % toPoly f).coeff (n - 1 - a))) := by
  set T : Matrix (Fin n) (Fin n) (ZMod 2) := Matrix.of fun a b : Fin n => (((X ^ 2) ^ (n - 1 - (b : ℕ)) : (ZMod 2)[X]) % toPoly f).coeff (n - 1 - a) with hT
  unfold fillB
  refine (forUp_ok (fun j s => (∃ M : Matrix (Fin n) (Fin n) (ZMod 2), BM.Rep s.1 M ∧ ∀ a b : Fin n, n - 1 - (b : ℕ) < j → M a b = T a b) ∧
    PRep s.2 ((X ^ 2) ^ j % toPoly f)) (Nat.zero_le n) ⟨⟨M0, hB, fun _ _ h => by omega⟩, canon_one, ?_⟩ ?_).mono fun s hs => ?_
  · rw [toPoly_one, pow_zero, eq_comm, Polynomial.mod_eq_self_iff hf, degree_one,
      degree_eq_natDegree hf, hn]
    exact_mod_cast (by omega : 0 < n)
  · rintro j ⟨BI, t⟩ _ hj ⟨⟨M, hM, hMT⟩, ht⟩
    dsimp only at hM ht ⊢
    refine (forUp_ok (fun i BI => ∃ M : Matrix (Fin n) (Fin n) (ZMod 2), BM.Rep BI M ∧
      ∀ a b : Fin n, (n - 1 - (b : ℕ) < j ∨ n - 1 - (b : ℕ) = j ∧ n - 1 - (a : ℕ) < i) → M a b = T a b)
      (Nat.zero_le n) ⟨M, hM, fun a b h => hMT a b (by omega)⟩ ?_).bind fun BI' hBI' => ?_
    · intro i BI _ hi ⟨M, hM, hMT⟩
      rw [bit_at_ok, ok_bind]
      obtain ⟨r, hr, hr'⟩ := BM.cput_rep hM (i := n - 1 - i) (j := n - 1 - j) (by omega) (by omega) (bitAt t i)
      rw [hr, Ok_ok]
      refine ⟨_, hr', fun a b hab => ?_⟩
      rw [BM.updEntry_apply]
      split
      · rename_i hh
        obtain ⟨rfl, rfl⟩ := hh
        rw [b2_eq_coeff, ht.2, hT, Matrix.of_apply]
        simp only
        rw [show n - 1 - (n - 1 - j) = j by omega, show n - 1 - (n - 1 - i) = i by omega]
      · rename_i hh
        refine hMT a b ?_
        by_contra hcon
        apply hh
        have := a.2; have := b.2
        constructor <;> ext <;> simp <;> omega
    · obtain ⟨M', hM', hMT'⟩ := hBI'
      refine (mul_ok ht.1).bind fun u hu => ?_
      refine (mod_ok hu.2 hfc.ne_nil hf).bind fun w hw => ?_
      rw [Ok_ok]
      refine ⟨⟨M', hM', fun a b h => hMT' a b ?_⟩, hw.2, ?_⟩
      · have := a.2; omega
      · rw [hw.1, hu.1, ht.2, hx.2, ← Polynomial.mul_mod, pow_succ (X ^ 2) j]
  · obtain ⟨⟨M, hM, hMT⟩, -⟩ := hs
    have : M = T := by ext a b; exact hMT a b (by have := b.2; omega)
    rw [← this]; exact hM

theorem subI_ok {f : (ZMod 2)[X]} {BI : BM}
    (hB : BM.Rep BI (Matrix.of fun a b : Fin n => (((X ^ 2) ^ (n - 1 - (b : ℕ)) : (ZMod 2)[X]) % f).coeff (n - 1 - a))) :
    (subI n BI).Ok (fun B => BM.Rep B (berMat 2 f n)) := by
  unfold subI
  set T : Matrix (Fin n) (Fin n) (ZMod 2) := Matrix.of fun a b : Fin n => (((X ^ 2) ^ (n - 1 - (b : ℕ)) : (ZMod 2)[X]) % f).coeff (n - 1 - a) with hT
  refine (forUp_ok (fun i B => ∃ M : Matrix (Fin n) (Fin n) (ZMod 2), BM.Rep B M ∧
    ∀ a b : Fin n, M a b = T a b - if a = b ∧ (a : ℕ) < i then 1 else 0) (Nat.zero_le n) ⟨T, hB, by simp⟩ ?_).mono fun B hB' => ?_
  · intro i B _ hi ⟨M, hM, hMT⟩
    obtain ⟨r, hr, hr'⟩ := BM.ctoggle_rep hM hi hi
    rw [hr, Ok_ok]
    refine ⟨_, hr', fun a b => ?_⟩
    rw [BM.updEntry_apply, hMT, hMT]
    by_cases hab : a = ⟨i, hi⟩ ∧ b = ⟨i, hi⟩
    · obtain ⟨rfl, rfl⟩ := hab
      rw [if_pos ⟨rfl, rfl⟩]
      simp [zmod2_sub]
    · rw [if_neg hab]
      congr 1
      by_cases h1 : a = b
      · subst h1
        have : (a : ℕ) ≠ i := fun h => hab ⟨Fin.ext h, Fin.ext h⟩
        simp; split <;> split <;> first | rfl | omega
      · simp [h1]
  · obtain ⟨M, hM, hMT⟩ := hB'
    have : M = berMat 2 f n := by
      ext a b; rw [hMT]; unfold berMat; simp [hT]
    rw [← this]; exact hM

/-! ### splitting by a kernel vector -/

theorem isGcd_eq_one_iff_F2 {g a b : (ZMod 2)[X]} (h : IsGcd g a b) : g = 1 ↔ IsCoprime a b := by
  rw [← isRelPrime_iff_isCoprime]
  constructor
  · rintro rfl c hc hd; exact isUnit_of_dvd_one (h.2.2 c hc hd)
  · intro hr; exact dvd_antisymm_F2 (hr h.1 h.2.1).dvd (one_dvd _)

theorem split_mul {f h f1 f2 : (ZMod 2)[X]} (hk : f ∣ h ^ 2 - h) (h1 : IsGcd f1 f h) (h2 : IsGcd f2 f (h + 1)) : f = f1 * f2 := by
  have he : h ^ 2 - h = h * (h + 1) := by
    have : (2 : (ZMod 2)[X]) = 0 := two_eq_zero
    linear_combination -h * this
  have hcop : IsCoprime h (h + 1) := ⟨-1, 1, by ring⟩
  refine dvd_antisymm_F2 ?_ ?_
  · rw [he] at hk
    obtain ⟨a, b, ha, hb, rfl⟩ := exists_dvd_and_dvd_of_dvd_mul hk
    exact mul_dvd_mul (h1.2.2 a (dvd_mul_right _ _) ha) (h2.2.2 b (dvd_mul_left _ _) hb)
  · exact ((hcop.of_isCoprime_of_dvd_left h1.2.1).of_isCoprime_of_dvd_right h2.2.1).mul_dvd h1.1 h2.1

theorem mod_eq_of_dvd {f a h : (ZMod 2)[X]} (hf : f ≠ 0) (hd : h.degree < f.degree) (hk : f ∣ a - h) : a % f = h := by
  refine eq_of_dvd_sub (EuclideanDomain.mod_lt _ hf) hd ?_
  have := dvd_sub hk (dvd_sub_mod a f)
  rw [sub_sub_sub_cancel_left] at this
  exact this

theorem checkH_ok {f h hc : F2P} (hfn : f ≠ []) (hf : toPoly f ≠ 0) {x : (ZMod 2)[X]} (hh : PRep h x) (hhc : PRep hc (x + 1))
    (hd : x.degree < (toPoly f).degree) (hd1 : (x + 1).degree < (toPoly f).degree) (hk : toPoly f ∣ x ^ 2 - x) :
    checkH f h hc = ok () := by
  have hk1 : toPoly f ∣ (x + 1) * (x + 1) - (x + 1) := by
    have : (x + 1) * (x + 1) - (x + 1) = x ^ 2 - x := by
      have : (2 : (ZMod 2)[X]) = 0 := two_eq_zero
      linear_combination x * this
    rw [this]; exact hk
  unfold checkH
  obtain ⟨t, ht, ht'⟩ := mul_ok (b := h) hh.1
  obtain ⟨c, hc0, hc'⟩ := mod_ok ht'.2 hfn hf
  obtain ⟨t2, ht2, ht2'⟩ := mul_ok (b := hc) hhc.1
  obtain ⟨c2, hc20, hc2'⟩ := mod_ok ht2'.2 hfn hf
  rw [ht, ok_bind, hc0, ok_bind, ht2, ok_bind, hc20, ok_bind]
  have e1 : toPoly c = x := by
    rw [hc'.1, ht'.1, hh.2]; exact mod_eq_of_dvd hf hd (by rw [← sq]; exact hk)
  have e2 : toPoly c2 = x + 1 := by
    rw [hc2'.1, ht2'.1, hhc.2]; exact mod_eq_of_dvd hf hd1 hk1
  have n1 : ne h c = ok false := by
    rw [F2Mod.ne_ok hh.1.ne_nil hc'.2.ne_nil, hh.2, e1]; simp
  have n2 : ne hc c2 = ok false := by
    rw [F2Mod.ne_ok hhc.1.ne_nil hc2'.2.ne_nil, hhc.2, e2]; simp
  rw [n1, ok_bind, n2]; simp

/-- what the recursion delivers on inputs of degree below `k` -/
def FSpec (U : Prop) (recurse : Bool) (k : ℕ) (run : F2P → FacInfo F2P → Res (FacInfo F2P)) : Prop :=
  ∀ (f : F2P) (fi : FacInfo F2P) (M : Multiset (ZMod 2)[X]), Canon f → 0 < (toPoly f).natDegree → (toPoly f).natDegree < k →
    (((toPoly f).natDegree + M.card : ℕ) : Int) ≤ INT_MAX → FacInfo.MsP PRep nval fi M none →
    (run f fi).Sat U (fun fi' => ∃ N, FacInfo.MsP PRep nval fi' (M + N) none ∧ FactOut recurse (toPoly f) N)

theorem insert_sat {recurse : Bool} {f : F2P} {fi : FacInfo F2P} {M : Multiset (ZMod 2)[X]} (hfc : Canon f)
    (hirr : Irreducible (toPoly f)) (hc : (((toPoly f).natDegree + M.card : ℕ) : Int) ≤ INT_MAX) (hM : FacInfo.MsP PRep nval fi M none) :
    (FacInfo.insert_factor eltOps fi f 1).Sat U (fun fi' => ∃ N, FacInfo.MsP PRep nval fi' (M + N) none ∧ FactOut recurse (toPoly f) N) := by
  have := hirr.natDegree_pos
  refine Res.sat_of_ok ((FacInfo.msp_insert_one facRef hM ⟨hfc, rfl⟩ (by omega)).mono fun r hr => ⟨_, hr, FactOut.single hirr⟩)

theorem insertSplit_sat {recurse : Bool} {k : ℕ} {run : F2P → FacInfo F2P → Res (FacInfo F2P)} (hrun : FSpec U recurse k run)
    {dimker : ℕ} {f f1 f2 : F2P} {fi : FacInfo F2P} {M : Multiset (ZMod 2)[X]} (h1 : Canon f1) (h2 : Canon f2)
    (hs : Squarefree (toPoly f)) (hf : toPoly f = toPoly f1 * toPoly f2) (hd1 : 0 < (toPoly f1).natDegree) (hd2 : 0 < (toPoly f2).natDegree)
    (hk : (toPoly f).natDegree ≤ k)
    (hdim : dimker = (toPoly f).natDegree - (berMat 2 (toPoly f) (toPoly f).natDegree).rank)
    (hc : (((toPoly f).natDegree + M.card : ℕ) : Int) ≤ INT_MAX) (hM : FacInfo.MsP PRep nval fi M none) :
    (insertSplit run recurse dimker f1 f2 fi).Sat U (fun fi' => ∃ N, FacInfo.MsP PRep nval fi' (M + N) none ∧ FactOut recurse (toPoly f) N) := by
  have hne1 : toPoly f1 ≠ 0 := by intro h; rw [h] at hd1; simp at hd1
  have hne2 : toPoly f2 ≠ 0 := by intro h; rw [h] at hd2; simp at hd2
  have hsum : (toPoly f).natDegree = (toPoly f1).natDegree + (toPoly f2).natDegree := by rw [hf, natDegree_mul hne1 hne2]
  have hpair : ∀ N, FacInfo.MsP PRep nval fi M none → N = ({toPoly f1} + {toPoly f2} : Multiset (ZMod 2)[X]) →
      FactOut recurse (toPoly f) N →
      ((do let fi ← FacInfo.insert_factor eltOps fi f1 1
           FacInfo.insert_factor eltOps fi f2 1) : Res (FacInfo F2P)).Sat U
        (fun fi' => ∃ N, FacInfo.MsP PRep nval fi' (M + N) none ∧ FactOut recurse (toPoly f) N) := by
    intro N hM hN hout
    refine Res.sat_of_ok ((FacInfo.msp_insert_one facRef hM ⟨h1, rfl⟩ (by omega)).bind fun r hr => ?_)
    refine (FacInfo.msp_insert_one facRef hr ⟨h2, rfl⟩ (by rw [Multiset.card_add, Multiset.card_singleton]; omega)).mono fun r' hr' => ⟨N, ?_, hout⟩
    rw [hN, ← add_assoc]; exact hr'
  unfold insertSplit
  split
  · rename_i hd
    have i1 : Irreducible (toPoly f1) := irreducible_of_nullity_two hs hf hd1 hd2 (by rw [ZMod.card]; omega)
    have i2 : Irreducible (toPoly f2) := irreducible_of_nullity_two hs (hf.trans (mul_comm _ _)) hd2 hd1 (by rw [ZMod.card]; omega)
    refine hpair _ hM rfl ?_
    rw [hf]; exact (FactOut.single i1).mul (FactOut.single i2) hd1 hd2
  · split
    · rename_i hr
      obtain rfl : recurse = false := by simpa using hr
      refine hpair _ hM rfl ?_
      rw [hf]; exact FactOut.pair hd1 hd2
    · refine (hrun f1 fi M h1 hd1 (by omega) (by omega) hM).bind fun fi1 hfi1 => ?_
      obtain ⟨N1, hN1, ho1⟩ := hfi1
      have hcard := ho1.card_le
      refine (hrun f2 fi1 (M + N1) h2 hd2 (by omega) (by rw [Multiset.card_add]; omega) hN1).mono fun fi2 hfi2 => ?_
      obtain ⟨N2, hN2, ho2⟩ := hfi2
      refine ⟨N1 + N2, by rw [← add_assoc]; exact hN2, ?_⟩
      rw [hf]; exact ho1.mul ho2 hd1 hd2

theorem rowLoop_sat {recurse : Bool} {k : ℕ} {run : F2P → FacInfo F2P → Res (FacInfo F2P)} (hrun : FSpec U recurse k run)
    {dimker : ℕ} {f : F2P} {fi : FacInfo F2P} {M : Multiset (ZMod 2)[X]} (hfc : Canon f) (hs : Squarefree (toPoly f))
    (hn : (toPoly f).natDegree = n) (h2 : 2 ≤ n) (hk : n ≤ k)
    (hdim : dimker = n - (berMat 2 (toPoly f) n).rank)
    (hc : ((n + M.card : ℕ) : Int) ≤ INT_MAX) (hM : FacInfo.MsP PRep nval fi M none)
    {basis : BM} {B : Matrix (Fin dimker) (Fin n) (ZMod 2)} (hB : BM.Rep basis B)
    (hker : ∀ i, toPoly f ∣ ofVec (B i) ^ 2 - ofVec (B i)) :
    ∀ (m row : ℕ), row + m = dimker → (∃ i : Fin dimker, row ≤ i ∧ 0 < (ofVec (B i)).natDegree) →
    (rowLoop run recurse f n dimker basis fi m row).Sat U
      (fun fi' => ∃ N, FacInfo.MsP PRep nval fi' (M + N) none ∧ FactOut recurse (toPoly f) N)
  | 0, row, hm, ⟨i, hi, _⟩ => by have := i.2; omega
  | m + 1, row, hm, hex => by
    have hf0 : toPoly f ≠ 0 := hs.ne_zero
    have hrow : row < dimker := by omega
    have hdeg : (toPoly f).degree = (n : WithBot ℕ) := by rw [degree_eq_natDegree hf0, hn]
    unfold rowLoop
    obtain ⟨v, hv, hvr⟩ := hB.at hrow
    rw [show BM.row basis row = ok v by unfold BM.row; rw [if_pos (by rw [hB.nr]; exact hrow), hv], ok_bind]
    obtain ⟨h, hh, hhr⟩ := from_vector_ok hvr
    rw [hh, ok_bind]
    set x := ofVec (B ⟨row, hrow⟩) with hx
    obtain ⟨hc', hhc, hhcr⟩ := add_ok (b := one) hhr.1.ne_nil
    have hhcr' : PRep hc' (x + 1) := ⟨hhcr.2, by rw [hhcr.1, hhr.2, toPoly_one]⟩
    rw [hhc, ok_bind]
    have hxd : x.degree < (toPoly f).degree := by rw [hdeg]; exact degree_ofVec _
    have h1d : (1 : (ZMod 2)[X]).degree < (toPoly f).degree := by
      rw [hdeg, degree_one]; exact_mod_cast (by omega : 0 < n)
    have hx1d : (x + 1).degree < (toPoly f).degree := (degree_add_le _ _).trans_lt (max_lt hxd h1d)
    rw [checkH_ok hfc.ne_nil hf0 hhr hhcr' hxd hx1d (hker _), ok_bind]
    obtain ⟨f1, hf1, g1, c1⟩ := gcd_ok hfc hhr.1
    obtain ⟨f2, hf2, g2, c2⟩ := gcd_ok hfc hhcr'.1
    rw [hhr.2] at g1; rw [hhcr'.2] at g2
    rw [hf1, ok_bind, hf2, ok_bind]
    have hprod := split_mul (hker ⟨row, hrow⟩) g1 g2
    have hp1 : toPoly f1 ≠ 0 := left_ne_zero_of_mul (hprod ▸ hf0)
    have hp2 : toPoly f2 ≠ 0 := right_ne_zero_of_mul (hprod ▸ hf0)
    have next : (x.natDegree = 0 → (rowLoop run recurse f n dimker basis fi m (row + 1)).Sat U
      (fun fi' => ∃ N, FacInfo.MsP PRep nval fi' (M + N) none ∧ FactOut recurse (toPoly f) N)) := by
      intro hx0
      refine rowLoop_sat hrun hfc hs hn h2 hk hdim hc hM hB hker m (row + 1) (by omega) ?_
      obtain ⟨i, hi, hi'⟩ := hex
      refine ⟨i, ?_, hi'⟩
      rcases Nat.lt_or_ge row i with h | h
      · exact h
      · have : i = ⟨row, hrow⟩ := Fin.ext (by simp; omega)
        rw [this, ← hx, hx0] at hi'; exact absurd hi' (lt_irrefl 0)
    rw [eqInt_ok c1.ne_nil, ok_bind]
    by_cases e1 : toPoly f1 = 1
    · rw [if_pos (by rw [decide_eq_true_iff, e1]; simp)]
      refine next ?_
      rw [e1, one_mul] at hprod
      have hd := g2.2.1
      rw [← hprod] at hd
      have : x + 1 = 0 := eq_zero_of_dvd_of_degree_lt hd hx1d
      rw [eq_neg_of_add_eq_zero_left this]; simp
    · rw [if_neg (by rw [decide_eq_true_iff]; simpa using e1)]
      rw [eqInt_ok c2.ne_nil, ok_bind]
      by_cases e2 : toPoly f2 = 1
      · rw [if_pos (by rw [decide_eq_true_iff, e2]; simp)]
        refine next ?_
        rw [e2, mul_one] at hprod
        have hd := g1.2.1
        rw [← hprod] at hd
        rw [eq_zero_of_dvd_of_degree_lt hd hxd]; simp
      · rw [if_neg (by rw [decide_eq_true_iff]; simpa using e2)]
        have d1 : 0 < (toPoly f1).natDegree := by
          rcases Nat.eq_zero_or_pos (toPoly f1).natDegree with h | h
          · rcases natDegree_zero_cases h with h | h
            · exact absurd h hp1
            · exact absurd h e1
          · exact h
        have d2 : 0 < (toPoly f2).natDegree := by
          rcases Nat.eq_zero_or_pos (toPoly f2).natDegree with h | h
          · rcases natDegree_zero_cases h with h | h
            · exact absurd h hp2
            · exact absurd h e2
          · exact h
        subst hn
        exact insertSplit_sat hrun c1 c2 hs hprod d1 d2 hk hdim hc hM

theorem berlekamp_sat {tm : TrimMask} (H : ∀ k, (tm k).Sat U fun _ => True) {recurse : Bool} {k : ℕ}
    {run : F2P → FacInfo F2P → Res (FacInfo F2P)} (hrun : FSpec U recurse k run)
    {f : F2P} {fi : FacInfo F2P} {M : Multiset (ZMod 2)[X]} (hfc : Canon f) (hs : Squarefree (toPoly f))
    (hpos : 0 < (toPoly f).natDegree) (hk : (toPoly f).natDegree ≤ k)
    (hc : (((toPoly f).natDegree + M.card : ℕ) : Int) ≤ INT_MAX) (hM : FacInfo.MsP PRep nval fi M none) :
    (berlekamp tm run recurse f fi).Sat U (fun fi' => ∃ N, FacInfo.MsP PRep nval fi' (M + N) none ∧ FactOut recurse (toPoly f) N) := by
  have hf0 : toPoly f ≠ 0 := hs.ne_zero
  unfold berlekamp
  rw [find_degree_ok, ok_bind]
  dsimp only
  obtain ⟨t, ht, ht'⟩ := mul_ok (b := ofInt2 1 0) canon_x
  obtain ⟨x2, hx2, hx2'⟩ := mod_ok ht'.2 hfc.ne_nil hf0
  rw [ht, ok_bind, hx2, ok_bind]
  generalize hn : (toPoly f).natDegree = n at *
  obtain ⟨A, hA, hAr⟩ := BM.alloc_rep (m := n) (n := n) hpos hpos
  rw [hA, ok_bind]
  split
  · exact insert_sat hfc (irreducible_of_degree_eq_one (by rw [degree_eq_natDegree hf0, hn]; exact_mod_cast (by omega : n = 1)))
      (by rw [hn]; exact hc) hM
  · obtain ⟨s, hs1, hs2⟩ := fillB_ok hfc hf0 hn (x2 := x2) ⟨hx2'.2, by rw [hx2'.1, ht'.1, toPoly_x, sq]⟩ (by omega) hAr
    obtain ⟨B, hB1, hB2⟩ := subI_ok hs2
    obtain ⟨R, hR1, M', hR2, ⟨rk, p, hred⟩, hRE⟩ := BM.ref_rep hB2
    rw [hs1, ok_bind, hB1, ok_bind, hR1, ok_bind, BM.rank_rr_rep hR2 hred.toIsEchelon, ok_bind]
    have hrank : (berMat 2 (toPoly f) n).rank = rk := by rw [← hRE.rank, hred.toIsEchelon.rank_eq]
    have hrank' : M'.rank = rk := hred.toIsEchelon.rank_eq
    have hge : 1 ≤ n - rk := by
      have := le_nullity hf0 ![toPoly f] (fun i => by fin_cases i; simpa [hn] using hpos)
        (by intro i j hij; exact absurd (Subsingleton.elim i j) hij) (by simp)
      rw [ZMod.card, hn, hrank] at this; exact this
    split
    · rename_i h1
      refine insert_sat hfc ?_ (by rw [hn]; exact hc) hM
      subst hn
      exact irreducible_of_nullity_one hs hpos (by rw [ZMod.card, hrank]; exact h1)
    · rename_i h1
      unfold splitByKernel
      refine (BM.kernel_sat H hpos hR2).bind fun got hgot => ?_
      cases got with
      | none =>
        exfalso
        have h2 := LinearMap.finrank_range_add_finrank_ker M'.mulVecLin
        rw [hgot, finrank_bot] at h2
        rw [Module.finrank_fin_fun, add_zero] at h2
        have : M'.rank = n := h2
        omega
      | some basis =>
        obtain ⟨d, hd, hd0, K, hK, hind, hspan⟩ := hgot
        rw [hrank'] at hd
        dsimp only
        rw [hK.nr, if_neg (by rw [hd]; simp)]
        have hker : ∀ i, toPoly f ∣ ofVec (K i) ^ 2 - ofVec (K i) := by
          intro i
          have h3 : K i ∈ LinearMap.ker M'.mulVecLin := by rw [← hspan]; exact Submodule.subset_span ⟨i, rfl⟩
          have h4 := (hRE.ker (K i)).mp (by simpa using h3)
          have h5 := (berMat_ker hf0 hn (K i)).mp (by rw [ZMod.card]; exact h4)
          rwa [ZMod.card] at h5
        rw [← hd]
        obtain ⟨i, hi⟩ := exists_nonconst (by omega) hind
        exact rowLoop_sat hrun hfc hs hn (by omega) hk (by rw [hrank]; exact hd) hc hM hK hker d 0 (by omega) ⟨i, Nat.zero_le _, hi⟩

theorem pre_berlekamp_spec {tm : TrimMask} (H : ∀ k, (tm k).Sat U fun _ => True) (recurse : Bool) :
    ∀ k, FSpec U recurse k (pre_berlekamp tm recurse k)
  | 0 => fun f fi M _ _ h => by omega
  | k + 1 => by
    intro f fi M hfc hpos hk hc hM
    have ih := pre_berlekamp_spec H recurse k
    have hf0 : toPoly f ≠ 0 := by intro h; rw [h] at hpos; simp at hpos
    unfold pre_berlekamp
    obtain ⟨d, hd, hd1, hd2⟩ := deriv_ok hfc.ne_nil
    obtain ⟨g, hg, hg1, hg2⟩ := gcd_ok hfc hd2
    rw [hd, ok_bind, hg, ok_bind, eqZero_ok hg2.ne_nil, ok_bind]
    rw [hd1] at hg1
    have hg0 : toPoly g ≠ 0 := fun h => hf0 (zero_dvd_iff.mp (h ▸ hg1.1))
    rw [if_neg (by simpa using hg0), eqInt_ok hg2.ne_nil, ok_bind]
    by_cases e1 : toPoly g = 1
    · rw [if_pos (by rw [decide_eq_true_iff, e1]; simp)]
      have hsep : (toPoly f).Separable := (isGcd_eq_one_iff_F2 hg1).mp e1
      exact berlekamp_sat H ih hfc hsep.squarefree hpos (by omega) hc hM
    · rw [if_neg (by rw [decide_eq_true_iff]; simpa using e1), eqZero_ok hd2.ne_nil, ok_bind]
      by_cases e2 : toPoly d = 0
      · rw [if_pos (by simpa using e2)]
        unfold squareCase
        obtain ⟨s, hs, hs'⟩ := square_root_ok f
        rw [hs, ok_bind]
        cases s with
        | none => exact absurd ((derivative_zero_iff _).mp (hd1.symm.trans e2)) hs'
        | some s =>
          obtain ⟨hsc, hsq⟩ := hs'
          dsimp only
          have hdeg : (toPoly f).natDegree = 2 * (toPoly s).natDegree := by rw [← hsq, natDegree_pow]
          refine (ih s FacInfo.empty 0 hsc (by omega) (by omega) (by rw [Multiset.card_zero]; omega) FacInfo.msp_empty).bind fun sfi hsfi => ?_
          obtain ⟨N, hN, hout⟩ := hsfi
          rw [zero_add] at hN
          have hcard := hout.card_le
          rw [find_degree_ok, ok_bind, if_pos hpos]
          refine Res.sat_of_ok ((FacInfo.msp_exp_all facRef hN (k := 2) (by omega) (by decide) (by push_cast at hc ⊢; omega)).bind fun sfi2 h2 => ?_)
          refine (FacInfo.msp_merge facRef hM h2 (by rw [Multiset.card_nsmul]; push_cast at hc ⊢; omega)).mono fun r hr => ⟨2 • N, hr, ?_⟩
          rw [← hsq]; exact hout.pow 2 le_rfl
      · rw [if_neg (by simpa using e2)]
        obtain ⟨q, hq, hq1, hq2⟩ := div_ok hfc.good hg2.ne_nil hg0
        rw [hq, ok_bind]
        have hprod : toPoly f = toPoly g * toPoly q := by rw [hq1, EuclideanDomain.mul_div_cancel' hg0 hg1.1]
        have hq0 : toPoly q ≠ 0 := right_ne_zero_of_mul (hprod ▸ hf0)
        have hsum : (toPoly f).natDegree = (toPoly g).natDegree + (toPoly q).natDegree := by rw [hprod, natDegree_mul hg0 hq0]
        have hgpos : 0 < (toPoly g).natDegree := by
          rcases Nat.eq_zero_or_pos (toPoly g).natDegree with h | h
          · rcases natDegree_zero_cases h with h | h
            · exact absurd h hg0
            · exact absurd h e1
          · exact h
        have hglt : (toPoly g).natDegree < (toPoly f).natDegree := by
          have h1 := natDegree_le_of_dvd hg1.2.1 (hd1 ▸ e2)
          have h2 := natDegree_derivative_lt (p := toPoly f) (by omega)
          omega
        refine (ih g fi M hg2 hgpos (by omega) (by omega) hM).bind fun fi1 hfi1 => ?_
        obtain ⟨N1, hN1, ho1⟩ := hfi1
        have hcard := ho1.card_le
        refine (ih q fi1 (M + N1) hq2 (by omega) (by omega) (by rw [Multiset.card_add]; omega) hN1).mono fun fi2 hfi2 => ?_
        obtain ⟨N2, hN2, ho2⟩ := hfi2
        refine ⟨N1 + N2, by rw [← add_assoc]; exact hN2, ?_⟩
        rw [hprod]; exact ho1.mul ho2 hgpos (by omega)

theorem factor_sat {tm : TrimMask} (H : ∀ k, (tm k).Sat U fun _ => True) {f : F2P} (hfc : Canon f) (hpos : 0 < (toPoly f).natDegree)
    (hmax : ((toPoly f).natDegree : Int) ≤ INT_MAX) :
    (factor tm f).Sat U (fun fi => ∃ N, FacInfo.MsP PRep nval fi N none ∧ FactOut true (toPoly f) N) := by
  unfold factor
  rw [find_degree_ok, ok_bind, if_neg (by omega)]
  refine (pre_berlekamp_spec H true ((toPoly f).natDegree + 1) f FacInfo.empty 0 hfc hpos (by omega) (by simpa using hmax) FacInfo.msp_empty).mono
    fun r ⟨N, h1, h2⟩ => ⟨N, by rwa [zero_add] at h1, h2⟩

theorem is_irreducible_sat {tm : TrimMask} (H : ∀ k, (tm k).Sat U fun _ => True) {f : F2P} (hfc : Canon f)
    (hmax : ((toPoly f).natDegree : Int) ≤ INT_MAX) :
    (is_irreducible tm f).Sat U (fun b => b = true ↔ Irreducible (toPoly f)) := by
  unfold is_irreducible
  rw [find_degree_ok, ok_bind]
  split
  · rename_i h
    rw [Sat_ok]
    simp only [Bool.false_eq_true, false_iff]
    intro hi; have := hi.natDegree_pos; omega
  · split
    · rename_i h0 h
      rw [Sat_ok]
      simp only [true_iff]
      have hf0 : toPoly f ≠ 0 := by intro hh; rw [hh] at h; simp at h
      exact irreducible_of_degree_eq_one (by rw [degree_eq_natDegree hf0, h]; rfl)
    · refine (pre_berlekamp_spec H false ((toPoly f).natDegree + 1) f FacInfo.empty 0 hfc (by omega) (by omega) (by simpa using hmax)
        FacInfo.msp_empty).bind fun fi hfi => ?_
      obtain ⟨N, h1, h2⟩ := hfi
      rw [zero_add] at h1
      have hcard := h2.card_le
      rw [FacInfo.num_factors_ok h1 (by omega), ok_bind, Sat_ok]
      simp only [beq_iff_eq, Nat.cast_eq_one]
      refine ⟨h2.one, fun hirr => ?_⟩
      have hp := h2.card_pos (by omega)
      by_contra hne
      obtain ⟨a, ha⟩ := Multiset.card_pos_iff_exists_mem.mp hp
      obtain ⟨N', rfl⟩ := Multiset.exists_cons_of_mem ha
      have hp' : 0 < N'.card := by rw [Multiset.card_cons] at hne; omega
      obtain ⟨b, hb⟩ := Multiset.card_pos_iff_exists_mem.mp hp'
      have hprod := h2.prod
      rw [Multiset.prod_cons] at hprod
      rcases hirr.isUnit_or_isUnit hprod.symm with hu | hu
      · exact not_unit_of_natDegree_pos (h2.pos a (Multiset.mem_cons_self _ _)) hu
      · exact not_unit_of_natDegree_pos (h2.pos b (Multiset.mem_cons_of_mem hb)) (isUnit_of_dvd_unit (Multiset.dvd_prod hb) hu)

end F2P
end Spffl
