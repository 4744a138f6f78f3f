import Verif.Model.Diag
import Verif.Proof.Diag
import Verif.Props.Convert
import Verif.Props.LinAlg
import Verif.Props.PolyFactor
import Verif.Props.Units
import Verif.Props.IntMath

open Polynomial Module
namespace Spffl
open Res CPoly F2P Props Props.CP Props.TM
namespace Diag

variable {m : (ZMod 2)[X]} [hmi : Fact (Irreducible m)] {n : ℕ}

theorem count_prod {K : Type*} [Field K] [DecidableEq K] : ∀ (l : List (K × ℕ)), (l.map Prod.fst).Nodup →
    (∀ x, x ∉ l.map Prod.fst → (l.map fun y : K × ℕ => (X - C y.1) ^ y.2).prod.rootMultiplicity x = 0) ∧
    ∀ y ∈ l, (l.map fun y : K × ℕ => (X - C y.1) ^ y.2).prod.rootMultiplicity y.1 = y.2
  | [], _ => by
    constructor
    · intro x _; simp
    · intro y hy; simp at hy
  | a :: l, h => by
    rw [List.map_cons, List.nodup_cons] at h
    obtain ⟨h1, h2⟩ := count_prod l h.2
    have hne : (X - C a.1) ^ a.2 * (l.map fun y => (X - C y.1) ^ y.2).prod ≠ 0 := by
      refine mul_ne_zero (pow_ne_zero _ (X_sub_C_ne_zero _)) (List.prod_ne_zero ?_)
      intro hh
      obtain ⟨y, -, hy⟩ := List.mem_map.mp hh
      exact pow_ne_zero _ (X_sub_C_ne_zero _) hy
    have hother : ∀ x, x ≠ a.1 → ((X - C a.1) ^ a.2 : K[X]).rootMultiplicity x = 0 := by
      intro x hx
      rw [rootMultiplicity_eq_zero]
      simp [IsRoot, sub_eq_zero, hx]
    constructor
    · intro x hx
      rw [List.map_cons, List.mem_cons, not_or] at hx
      rw [List.map_cons, List.prod_cons, rootMultiplicity_mul hne, h1 x hx.2, hother x hx.1]
    · intro y hy
      rw [List.map_cons, List.prod_cons, rootMultiplicity_mul hne]
      rcases List.mem_cons.mp hy with rfl | hy
      · rw [h1 _ h.1, rootMultiplicity_X_sub_C_pow]; rfl
      · rw [h2 y hy, hother, zero_add]
        rintro e
        exact h.1 (e ▸ List.mem_map_of_mem (f := Prod.fst) hy)

theorem key_linear (z : AdjoinRoot m) : f2nKey m (X + C z) = F2nP.kv m z + 2 ^ m.natDegree := by
  unfold f2nKey polyKey
  rw [natDegree_X_add_C]
  simp [digitSum, Finset.sum_range_succ, F2nP.kv_one, coeff_X, coeff_C]

theorem ith_factor {α : Type} {fi : FacInfo α} {i : ℕ} {x : α × Int} (h : fi.facs[i]? = some x) :
    fi.get_ith_factor i = ok x.1 ∧ fi.get_ith_count i = ok x.2 := by
  have hi := (List.getElem?_eq_some_iff.mp h).1
  unfold FacInfo.get_ith_factor FacInfo.get_ith_count
  rw [if_neg (by omega), if_neg (by omega)]
  simp [rd, h]

/-- what is needed to know about the factorization of a polynomial that splits -/
structure Lin (m : (ZMod 2)[X]) (fi : FacInfo (CPoly F2Mod)) (l : List (AdjoinRoot m × ℕ)) : Prop where
  all : List.Forall₂ (fun (x : CPoly F2Mod × Int) (y : AdjoinRoot m × ℕ) => F2n m x.1 (X + C y.1) ∧ x.2 = (y.2 : Int)) fi.facs l

theorem Lin.get {fi : FacInfo (CPoly F2Mod)} {l : List (AdjoinRoot m × ℕ)} (h : Lin m fi l) {i : ℕ} (hi : i < l.length) :
    ∃ a, fi.get_ith_factor i = ok a ∧ fi.get_ith_count i = ok (l[i].2 : Int) ∧ F2n m a (X + C l[i].1) ∧ a.degree = 1 := by
  have hi' : i < fi.facs.length := by rw [h.all.length_eq]; exact hi
  have hh := h.all.get hi' hi
  obtain ⟨e1, e2⟩ := ith_factor (List.getElem?_eq_getElem hi')
  refine ⟨fi.facs[i].1, e1, ?_, hh.1, ?_⟩
  · rw [e2]; congr 1; exact hh.2
  · have := hh.1.deg
    rw [natDegree_X_add_C] at this
    exact this.symm

omit hmi in
theorem Lin.num {fi : FacInfo (CPoly F2Mod)} {l : List (AdjoinRoot m × ℕ)} (h : Lin m fi l) : fi.num_distinct = l.length := h.all.length_eq

theorem countLinear_ok {fi : FacInfo (CPoly F2Mod)} {l : List (AdjoinRoot m × ℕ)} (h : Lin m fi l) : countLinear fi = ok l.length := by
  unfold countLinear
  obtain ⟨r, e, hr⟩ := forUp_ok (fun i s => s = i) (lo := 0) (hi := fi.num_distinct) (s := 0) (body := fun i nev => do
    let factor ← fi.get_ith_factor i
    ok (if factor.degree = 1 then nev + 1 else nev)) (Nat.zero_le _) rfl (by
      rintro i s - hi rfl
      obtain ⟨a, e1, -, -, e4⟩ := h.get (h.num ▸ hi)
      rw [e1, ok_bind, Ok_ok, if_pos e4])
  rw [e, hr, h.num]

theorem eigenvalues_ok {fi : FacInfo (CPoly F2Mod)} {l : List (AdjoinRoot m × ℕ)} (h : Lin m fi l) (hl : l ≠ []) :
    (eigenvalues fi l.length).Ok fun s => s.1 = true ∧ List.Forall₂ (F2Mod.Rep m) s.2 (l.map Prod.fst) := by
  have hpos : 0 < l.length := List.length_pos_iff.mpr hl
  unfold eigenvalues
  refine sat_false.mp ((valloc_sat hpos).bind fun evs hevs => ?_)
  refine (forUp_sat (fun i (s : Bool × TVec F2Mod) => s.1 = true ∧ s.2.length = l.length ∧
    ∀ (j : ℕ) (hj : j < l.length), j < i → At s.2 j (fun e => F2Mod.Rep m e l[j].1)) (Nat.zero_le _) ⟨rfl, hevs, by intro j hj h; omega⟩ ?_).mono ?_
  · rintro i ⟨b, v⟩ - hi ⟨hb, hv, hs⟩
    obtain ⟨a, e1, -, e3, e4⟩ := h.get hi
    dsimp only at hb hv hs ⊢
    rw [e1, ok_bind, if_neg (by simp [e4])]
    refine (vput_sat (by omega) (get_coeff_sat (F2Mod.cops_ref hmi.out.ne_zero) e3 0)).bind ?_
    rintro w ⟨x, hx, rfl⟩
    rw [Sat_ok]
    refine ⟨hb, by simpa using hv, fun j hj hji => ?_⟩
    rcases Nat.lt_succ_iff_lt_or_eq.mp hji with hlt | rfl
    · obtain ⟨e, he, hr⟩ := hs j hj hlt
      refine ⟨e, ?_, hr⟩
      rw [List.getElem?_set_ne (by omega)]; exact he
    · refine ⟨x, ?_, by simpa using hx⟩
      dsimp only
      rw [List.getElem?_set_self (by omega)]
  · rintro ⟨b, v⟩ ⟨hb, hv, hs⟩
    refine ⟨hb, ?_⟩
    rw [List.forall₂_iff_get]
    refine ⟨by simpa using hv, fun i h1 h2 => ?_⟩
    have h2' : i < l.length := by simpa using h2
    obtain ⟨e, he, hr⟩ := hs i h2' h2'
    dsimp only at he h1
    rw [List.getElem?_eq_getElem h1, Option.some.injEq] at he
    simpa [he] using hr

theorem multiplicities_ok {fi : FacInfo (CPoly F2Mod)} {l : List (AdjoinRoot m × ℕ)} (h : Lin m fi l) {A : TMat F2Mod}
    {M : Matrix (Fin n) (Fin n) (AdjoinRoot m)} (hn : 0 < n) (hmax : (n : Int) ≤ INT_MAX) (hA : F2nMat m A M) {evs : TVec F2Mod}
    (he : List.Forall₂ (F2Mod.Rep m) evs (l.map Prod.fst)) :
    (multiplicities fi A evs l.length true).Ok fun b => b = true ↔ ∀ y ∈ l, n - (M - y.1 • 1).rank = y.2 := by
  unfold multiplicities
  refine sat_false.mp ((forUp_sat (fun i (b : Bool) => b = true ↔ ∀ (j : ℕ) (hj : j < l.length), j < i → n - (M - l[j].1 • 1).rank = l[j].2)
    (Nat.zero_le _) (by simp) ?_).mono ?_)
  · rintro i b - hi hb
    obtain ⟨a, -, e2, -, -⟩ := h.get hi
    have hi' : i < evs.length := by rw [he.length_eq, List.length_map]; exact hi
    have hev : F2Mod.Rep m evs[i] l[i].1 := by
      have := he.get hi' (by simpa using hi)
      simpa using this
    have eg : TVec.get evs i = ok evs[i] := by
      unfold TVec.get rd; rw [if_pos hi', List.getElem?_eq_getElem hi']
    rw [eg, ok_bind]
    refine (C42_diagonal (C42_inst_f2_polymod hmi.out.ne_zero).1 hA hev).2.bind fun B hB => ?_
    refine (sat_false.mpr (C43_f2n hn hn hB)).bind fun r hr => ?_
    have hle : r ≤ n := by rw [hr]; exact (Matrix.rank_le_card_width _).trans (by simp)
    have hsub : isub A.num_rows r = ok ((n - r : ℕ) : Int) := by
      unfold isub chk
      rw [hA.shape.nr, if_pos (by unfold INT_MAX at hmax; unfold InInt; omega)]
      congr 1; omega
    rw [hsub, ok_bind, e2, ok_bind, Sat_ok]
    constructor
    · intro hh j hj hji
      split at hh
      · cases hh
      · rename_i hne
        rcases Nat.lt_succ_iff_lt_or_eq.mp hji with hlt | rfl
        · exact hb.mp hh j hj hlt
        · rw [← hr]
          have : ((n - r : ℕ) : Int) = (l[j].2 : Int) := not_not.mp hne
          exact_mod_cast this
    · intro hh
      have h1 : ((n - r : ℕ) : Int) = (l[i].2 : Int) := by
        rw [hr]; exact_mod_cast hh i hi (Nat.lt_succ_self i)
      rw [if_neg (by simpa using h1)]
      exact hb.mpr fun j hj hji => hh j hj (by omega)
  · intro b hb
    rw [hb]
    constructor
    · intro hh y hy
      obtain ⟨j, hj, rfl⟩ := List.getElem_of_mem hy
      exact hh j hj hj
    · intro hh j hj _
      exact hh _ (List.getElem_mem hj)

/-- The factorization of a characteristic polynomial that splits: its roots, with their multiplicities. -/
theorem split_factor (hd : m.natDegree ≤ 30) {cp : CPoly F2Mod} {M : Matrix (Fin n) (Fin n) (AdjoinRoot m)} (hn : 0 < n)
    (hmax : (n : Int) ≤ INT_MAX) (hc : F2n m cp M.charpoly) (hs : M.charpoly.Splits) :
    ∃ fi l', F2nP.factor cp = ok fi ∧ Lin m fi l' ∧ l' ≠ [] ∧ (l'.map Prod.fst).Pairwise (fun x y => F2nP.kv m x < F2nP.kv m y) ∧
      (∀ y, y ∈ l'.map Prod.fst ↔ M.charpoly.IsRoot y) ∧ ∀ y ∈ l', M.charpoly.rootMultiplicity y.1 = y.2 := by
  classical
  have : CharP (AdjoinRoot m) 2 := charP_of_injective_algebraMap (algebraMap (ZMod 2) (AdjoinRoot m)).injective 2
  have hdeg : M.charpoly.natDegree = n := by rw [Matrix.charpoly_natDegree_eq_dim, Fintype.card_fin]
  have hmon := Matrix.charpoly_monic M
  obtain ⟨fi, efi, hfi⟩ := C57_factor_partial hd hc (by omega) (by omega)
  obtain ⟨l, g1, g2, g3, g4, -⟩ := hfi
  rw [hmon.leadingCoeff, C_1, one_mul] at g4
  have hlin : ∀ y ∈ l, y.1 = X + C (y.1.coeff 0) := by
    intro y hy
    have hdv : y.1 ∣ M.charpoly := by
      rw [← g4]
      exact (dvd_pow_self _ (by have := (g3 y hy).2.2; omega)).trans (List.dvd_prod (List.mem_map_of_mem (f := fun y => y.1 ^ y.2) hy))
    have h1 := (hs.of_dvd hmon.ne_zero hdv).degree_eq_one_of_irreducible (g3 y hy).1
    have := eq_X_add_C_of_natDegree_le_one (natDegree_le_of_degree_le h1.le)
    have hc1 : y.1.coeff 1 = 1 := by
      have h2 := (g3 y hy).2.1
      have h3 : y.1.natDegree = 1 := natDegree_eq_of_degree_eq_some h1
      rw [Monic, leadingCoeff, h3] at h2
      exact h2
    rw [hc1, C_1, one_mul] at this
    exact this
  let l' : List (AdjoinRoot m × ℕ) := l.map fun y => (y.1.coeff 0, y.2)
  have hL : Lin m fi l' := ⟨by
    rw [List.forall₂_map_right_iff]
    refine List.Forall₂.imp (fun x y h => h) (List.forall₂_iff_get.mpr ⟨g1.length_eq, fun i h1 h2 => ?_⟩)
    have := g1.get h1 h2
    refine ⟨?_, this.2⟩
    have h3 := this.1
    rw [hlin _ (List.get_mem l ⟨i, h2⟩)] at h3
    exact h3⟩
  have hpw : (l'.map Prod.fst).Pairwise (fun x y => F2nP.kv m x < F2nP.kv m y) := by
    rw [List.map_map, List.pairwise_map]
    refine (List.Pairwise.imp_of_mem ?_ g2)
    intro x y hx hy hxy
    rw [hlin x hx, hlin y hy, key_linear, key_linear] at hxy
    simpa using hxy
  have hnd : (l'.map Prod.fst).Nodup := hpw.imp (by rintro x y h rfl; omega)
  have hprod : (l'.map fun y => (X - C y.1) ^ y.2).prod = M.charpoly := by
    rw [← g4, List.map_map]
    congr 1
    refine List.map_congr_left fun y hy => ?_
    rw [Function.comp_apply, ← CharTwo.neg_eq (y.1.coeff 0), C_neg, sub_neg_eq_add, ← hlin y hy]
  obtain ⟨k1, k2⟩ := count_prod l' hnd
  rw [hprod] at k1 k2
  have hroot : ∀ y, y ∈ l'.map Prod.fst ↔ M.charpoly.IsRoot y := by
    intro y
    rw [← rootMultiplicity_pos hmon.ne_zero]
    constructor
    · intro hy
      obtain ⟨z, hz, rfl⟩ := List.mem_map.mp hy
      rw [k2 z hz]
      obtain ⟨w, hw, rfl⟩ := List.mem_map.mp hz
      exact (g3 w hw).2.2
    · intro hy
      by_contra hno
      rw [k1 y hno] at hy
      omega
  have hl0 : l' ≠ [] := by
    rintro e
    have := hprod
    rw [e] at this
    rw [← this] at hdeg
    simp at hdeg
    omega
  exact ⟨fi, l', efi, hL, hl0, hpw, hroot, k2⟩

theorem finish_ok (hd : m.natDegree ≤ 30) {cp : CPoly F2Mod} {A : TMat F2Mod} {M : Matrix (Fin n) (Fin n) (AdjoinRoot m)} (hn : 0 < n)
    (hmax : (n : Int) ≤ INT_MAX) (hc : F2n m cp M.charpoly) (hA : F2nMat m A M) (hs : M.charpoly.Splits) (ext : F2P) :
    (finish ext cp A).Ok fun r => r.2.1 = ext ∧ (∃ ys : List (AdjoinRoot m), List.Forall₂ (F2Mod.Rep m) r.2.2 ys ∧
      ys.Pairwise (fun x y => F2nP.kv m x < F2nP.kv m y) ∧ ∀ y, y ∈ ys ↔ M.charpoly.IsRoot y) ∧ (r.1 = true ↔ Diagonalizable M) := by
  obtain ⟨fi, l', efi, hL, hl0, hpw, hroot, k2⟩ := split_factor hd hn hmax hc hs
  unfold finish
  rw [efi, ok_bind]
  rw [countLinear_ok hL, ok_bind]
  refine Ok.bind (eigenvalues_ok hL hl0) ?_
  rintro ⟨b, evs⟩ ⟨rfl, hev⟩
  refine Ok.bind (multiplicities_ok hL hn hmax hA hev) fun b hb => ?_
  rw [Ok_ok]
  refine ⟨rfl, ⟨_, hev, hpw, hroot⟩, ?_⟩
  dsimp only
  rw [hb, diag_iff hs]
  constructor
  · intro hh x hx
    obtain ⟨y, hy, rfl⟩ := List.mem_map.mp ((hroot x).mpr hx)
    rw [k2 y hy, hh y hy]
  · intro hh y hy
    rw [hh y.1 ((hroot y.1).mp (List.mem_map_of_mem (f := Prod.fst) hy)), k2 y hy]

theorem int_lcm_nat {a b : ℕ} (ha : 0 < a) (hb : 0 < b) (h : a * b ≤ 2147483647) : int_lcm a b = ok (Nat.lcm a b : Int) := by
  have h1 : a ≤ a * b := Nat.le_mul_of_pos_right _ hb
  have h2 : b ≤ a * b := Nat.le_mul_of_pos_left _ ha
  obtain ⟨g, e1, e2, e3⟩ := C01_int_gcd_partial a b (by unfold InInt; omega) (by unfold InInt; omega) (by unfold INT_MIN; omega) (by unfold INT_MIN; omega)
  have hg : g = (Nat.gcd a b : Int) := by
    have := e3 (by omega) (by omega)
    rw [Int.gcd_natCast_natCast] at e2
    omega
  have hg0 : 0 < Nat.gcd a b := Nat.gcd_pos_of_pos_left _ ha
  rw [int_lcm, imul, chk_ok (by unfold InInt; rw [← Nat.cast_mul]; omega), ok_bind, e1, ok_bind, idiv, hg, if_neg (by omega), chk, if_pos]
  · rw [← Nat.cast_mul]; rfl
  · rw [← Nat.cast_mul, ← Int.ofNat_tdiv]
    have := Nat.div_le_self (a * b) (Nat.gcd a b)
    exact ⟨le_trans (by norm_num) (Int.natCast_nonneg _), by exact_mod_cast this.trans h⟩

theorem degLcm_ok {fi : FacInfo (CPoly F2Mod)} {l : List ((AdjoinRoot m)[X] × ℕ)}
    (h : List.Forall₂ (fun (x : CPoly F2Mod × Int) (y : (AdjoinRoot m)[X] × ℕ) => F2n m x.1 y.1 ∧ x.2 = (y.2 : Int)) fi.facs l)
    {k : ℕ} (hk : k ≤ 30) (hk0 : 0 < k) (hl : ∀ y ∈ l, y.1.natDegree ∣ k) :
    ∃ d : ℕ, degLcm fi = ok (d : Int) ∧ 0 < d ∧ ∀ j, d ∣ j ↔ ∀ y ∈ l, y.1.natDegree ∣ j := by
  unfold degLcm
  obtain ⟨r, e, d, rfl, h0, hd⟩ := forUp_ok (fun i (s : Int) => ∃ d : ℕ, s = d ∧ 0 < d ∧
      ∀ j, d ∣ j ↔ ∀ (t : ℕ) (ht : t < l.length), t < i → l[t].1.natDegree ∣ j) (lo := 0) (hi := fi.num_distinct) (s := 1)
    (body := fun i deglcm => do
      let factor ← fi.get_ith_factor i
      int_lcm deglcm factor.degree) (Nat.zero_le _) ⟨1, rfl, one_pos, by simp⟩ (by
      rintro i s - hi ⟨d, rfl, h0, hd⟩
      have hi' : i < fi.facs.length := hi
      have hi2 : i < l.length := by rw [← h.length_eq]; exact hi
      have hh : F2n m fi.facs[i].1 l[i].1 := (h.get hi' hi2).1
      rw [(ith_factor (List.getElem?_eq_getElem hi')).1, ok_bind, ← hh.deg]
      have h1 : d ≤ 30 := (Nat.le_of_dvd hk0 ((hd k).mpr fun t ht _ => hl _ (List.getElem_mem ht))).trans hk
      have h2 : l[i].1.natDegree ≤ 30 := (Nat.le_of_dvd hk0 (hl _ (List.getElem_mem hi2))).trans hk
      have h3 : 0 < l[i].1.natDegree := Nat.pos_of_dvd_of_pos (hl _ (List.getElem_mem hi2)) hk0
      generalize hg : l[i].1.natDegree = g at h2 h3
      have h4 : d * g ≤ 30 * 30 := Nat.mul_le_mul h1 h2
      rw [int_lcm_nat h0 h3 (by omega), Ok_ok]
      refine ⟨_, rfl, Nat.lcm_pos h0 h3, fun j => ?_⟩
      rw [Nat.lcm_dvd_iff, hd]
      constructor
      · rintro ⟨k1, k2⟩ t ht hti
        rcases Nat.lt_succ_iff_lt_or_eq.mp hti with hlt | rfl
        · exact k1 t ht hlt
        · rw [hg]; exact k2
      · intro hh
        exact ⟨fun t ht hti => hh t ht (by omega), hg ▸ hh i hi2 (Nat.lt_succ_self i)⟩)
  refine ⟨d, e, h0, fun j => ?_⟩
  rw [hd]
  constructor
  · intro hh y hy
    obtain ⟨t, ht, rfl⟩ := List.getElem_of_mem hy
    exact hh t ht (by rw [show fi.num_distinct = l.length from h.length_eq]; exact ht)
  · intro hh t ht _
    exact hh _ (List.getElem_mem ht)

theorem splits_prod {K L : Type} [Field K] [Finite K] [Field L] [Finite L] (φ : K →+* L) {l : List (K[X] × ℕ)} {f : K[X]} {r : ℕ}
    (hl : ∀ y ∈ l, Irreducible y.1 ∧ y.1.Monic ∧ 1 ≤ y.2) (hf : (l.map fun y => y.1 ^ y.2).prod = f) (hc : Nat.card L = Nat.card K ^ r) :
    (f.map φ).Splits ↔ ∀ y ∈ l, y.1.natDegree ∣ r := by
  have hf0 : f ≠ 0 := by
    rw [← hf]
    refine List.prod_ne_zero fun hh => ?_
    obtain ⟨y, hy, hy'⟩ := List.mem_map.mp hh
    exact pow_ne_zero _ (hl y hy).1.ne_zero hy'
  have hm0 : f.map φ ≠ 0 := (Polynomial.map_ne_zero_iff φ.injective).mpr hf0
  constructor
  · intro h y hy
    rw [← splits_iff_dvd φ (hl y hy).1 hc]
    refine h.of_dvd hm0 (Polynomial.map_dvd φ ?_)
    rw [← hf]
    exact (dvd_pow_self _ (by have := (hl y hy).2.2; omega)).trans (List.dvd_prod (List.mem_map_of_mem (f := fun y => y.1 ^ y.2) hy))
  · intro h
    rw [← hf, Polynomial.map_list_prod]
    refine Splits.listProd ?_
    intro g hg
    simp only [List.map_map, List.mem_map, Function.comp_apply, Polynomial.map_pow] at hg
    obtain ⟨y, hy, rfl⟩ := hg
    exact ((splits_iff_dvd φ (hl y hy).1 hc).mpr (h y hy)).pow _

theorem card_hom {m' : (ZMod 2)[X]} [Fact (Irreducible m')] (φ : AdjoinRoot m →+* AdjoinRoot m') :
    ∃ r, m'.natDegree = m.natDegree * r ∧ Nat.card (AdjoinRoot m') = Nat.card (AdjoinRoot m) ^ r := by
  have := finite_adjoin m
  have := finite_adjoin m'
  let _ := φ.toAlgebra
  have h := Module.natCard_eq_pow_finrank (K := AdjoinRoot m) (V := AdjoinRoot m')
  refine ⟨_, ?_, h⟩
  rw [F2nP.natCard_eq (Fact.out (p := Irreducible m')).ne_zero, F2nP.natCard_eq hmi.out.ne_zero, ← pow_mul] at h
  exact Nat.pow_right_injective le_rfl h

theorem is_diagonalizable_sat {V : Prop} {tm : TrimMask} (H : ∀ k, (tm k).Sat V fun _ => True) {qs : List (F2Mod × ℕ) → List (F2Mod × ℕ)}
    {vs : List F2Mod → List F2Mod} (hqs : IsQsort F2Mod.lt qs) (hvs : IsSort F2Mod.lt vs) {A : TMat F2Mod}
    {M : Matrix (Fin n) (Fin n) (AdjoinRoot m)} (hn : 0 < n) (hmax : (n : Int) ≤ INT_MAX) (hA : F2nMat m A M)
    {m' : (ZMod 2)[X]} [Fact (Irreducible m')] (hm' : m'.natDegree ≤ 30) (χ : AdjoinRoot m →+* AdjoinRoot m') (hs : (M.charpoly.map χ).Splits) :
    (is_diagonalizable tm qs vs A).Sat V fun r => ∃ (μ : (ZMod 2)[X]) (_ : Fact (Irreducible μ)) (φ : AdjoinRoot m →+* AdjoinRoot μ),
      Canon r.2.1 ∧ toPoly r.2.1 = μ ∧ (M.charpoly.map φ).Splits ∧
      (∀ (ν : (ZMod 2)[X]) (_ : Fact (Irreducible ν)) (ψ : AdjoinRoot m →+* AdjoinRoot ν), (M.charpoly.map ψ).Splits → μ.natDegree ∣ ν.natDegree) ∧
      (M.charpoly.Splits → μ = m) ∧
      (∃ ys : List (AdjoinRoot μ), List.Forall₂ (F2Mod.Rep μ) r.2.2 ys ∧
        ys.Pairwise (fun x y => F2nP.kv μ x < F2nP.kv μ y) ∧ ∀ y, y ∈ ys ↔ (M.charpoly.map φ).IsRoot y) ∧
      (r.1 = true ↔ Diagonalizable (M.map φ)) := by
  have hfm := finite_adjoin m
  have hfm' := finite_adjoin m'
  have hdeg : M.charpoly.natDegree = n := by rw [Matrix.charpoly_natDegree_eq_dim, Fintype.card_fin]
  have hmon := Matrix.charpoly_monic M
  have hmpos : 0 < m.natDegree := hmi.out.natDegree_pos
  obtain ⟨r', hr1, hr2⟩ := card_hom χ
  have hr0 : 0 < r' := by
    rcases Nat.eq_zero_or_pos r' with rfl | h
    · rw [mul_zero] at hr1
      have := (Fact.out : Irreducible m').natDegree_pos
      omega
    · exact h
  have hmle : m.natDegree ≤ 30 := by
    have := Nat.le_mul_of_pos_right m.natDegree hr0
    omega
  unfold is_diagonalizable
  refine (LA.C80_f2n hn hA).sat.bind fun cp hcp => ?_
  refine (C57_factor_partial hmle hcp (by omega) (by omega)).sat.bind fun fi hfi => ?_
  obtain ⟨l, g1, -, g3, g4, -⟩ := hfi
  rw [hmon.leadingCoeff, C_1, one_mul] at g4
  have hr3 : r' ≤ 30 := by
    have := Nat.le_mul_of_pos_left r' hmpos
    omega
  obtain ⟨d, e1, hd0, hd⟩ := degLcm_ok g1 hr3 hr0 ((splits_prod χ g3 g4 hr2).mp hs)
  rw [e1, ok_bind]
  refine (cget_sat hA.shape hn (hA.ent ⟨0, hn⟩ ⟨0, hn⟩)).bind fun a ha => ?_
  have hdr : d ∣ r' := (hd r').mpr ((splits_prod χ g3 g4 hr2).mp hs)
  have hdle : m.natDegree * d ≤ 30 := by
    have := Nat.mul_le_mul_left m.natDegree (Nat.le_of_dvd hr0 hdr)
    omega
  have hmin : ∀ (ν : (ZMod 2)[X]) (_ : Fact (Irreducible ν)) (ψ : AdjoinRoot m →+* AdjoinRoot ν), (M.charpoly.map ψ).Splits →
      m.natDegree * d ∣ ν.natDegree := by
    intro ν hν ψ hψ
    have := finite_adjoin ν
    obtain ⟨r, k1, k2⟩ := card_hom ψ
    rw [k1]
    exact Nat.mul_dvd_mul_left _ ((hd r).mpr ((splits_prod ψ g3 g4 k2).mp hψ))
  have hone : M.charpoly.Splits ↔ d = 1 := by
    have := splits_prod (RingHom.id (AdjoinRoot m)) g3 g4 (r := 1) (pow_one _).symm
    rw [Polynomial.map_id, ← hd, Nat.dvd_one] at this
    exact this
  have hfd : F2P.find_degree a.modulus = ok m.natDegree := by
    have := find_degree_ok a.modulus
    rw [ha.hm] at this
    exact this
  rw [hfd, ok_bind, imul, chk_ok (by rw [← Nat.cast_mul, mul_comm]; unfold InInt; omega), ok_bind]
  by_cases h1 : d = 1
  · rw [if_pos (by exact_mod_cast h1)]
    refine (finish_ok hmle hn hmax hcp hA (hone.mpr h1) a.modulus).sat.mono ?_
    rintro r ⟨k1, k2, k3⟩
    refine ⟨m, hmi, RingHom.id _, by rw [k1]; exact ha.cm, by rw [k1]; exact ha.hm, ?_, ?_, fun _ => rfl, ?_, ?_⟩
    · rw [Polynomial.map_id]; exact hone.mpr h1
    · intro ν hν ψ hψ
      have := hmin ν hν ψ hψ
      rwa [h1, mul_one] at this
    · rwa [Polynomial.map_id]
    · simpa using k3
  rw [if_neg (by exact_mod_cast h1)]
  have hd2 : 2 ≤ d := by omega
  have hm15 : m.natDegree ≤ 15 := by
    have := Nat.mul_le_mul_left m.natDegree hd2
    omega
  rw [← Nat.cast_mul]
  have hge : 2 ≤ d * m.natDegree := le_trans hd2 (Nat.le_mul_of_pos_right _ hmpos)
  rw [mul_comm] at hdle
  refine (find_irreducible_sat H (d := d * m.natDegree) (by omega) (by unfold INT_MAX; omega)).bind fun ext hext => ?_
  obtain ⟨hx1, hx2, hx3, -, -⟩ := hext
  have hcu := units_small_f2 hmi.out.ne_zero hm15
  refine (C60_f2_generator_partial H ha.cm ha.hm hmi.out (by unfold INT_MAX; omega) (by omega) (Units.powOk_of_small Nat.card_pos hcu)).bind ?_
  rintro g ⟨g, p, rfl, hg1, hg2, hg3, -⟩
  have hw := hg3.1.ne_zero
  have hgen : IsGen (AdjoinRoot.mk m p) := fun u => hg3.2 u u.isUnit
  have hxi : Fact (Irreducible (toPoly ext)) := ⟨hx2⟩
  have hfx := finite_adjoin (toPoly ext)
  dsimp only
  refine (LA.C86_prep_partial (m2 := toPoly ext) hvs (by unfold INT_MAX; omega) (by omega) hg1 hx1 rfl).sat.bind fun o ho => ?_
  obtain ⟨y, hy⟩ := (Convert.root_iff_dvd (m2 := toPoly ext) hgen).mpr (by rw [hx3]; exact Dvd.intro_left d rfl)
  cases o with
  | none => exact absurd hy (ho y)
  | some eg =>
    obtain ⟨v, hv1, hv2, -⟩ := ho
    obtain ⟨φ, -, -, -, -, hpoly, hmat⟩ := LA.C86_convert_partial hqs hmle hg1 hv1 hw hgen hv2
    dsimp only
    refine (hpoly _ _ hcp).sat.bind fun cp2 hcp2 => ?_
    refine (hmat _ _ _ _ hn hn hA).sat.bind fun A2 hA2 => ?_
    obtain ⟨r, k1, k2⟩ := card_hom φ
    have hrd : r = d := by
      rw [hx3, mul_comm] at k1
      exact (Nat.eq_of_mul_eq_mul_left hmpos k1).symm
    have hsp : (M.charpoly.map φ).Splits := (splits_prod φ g3 g4 k2).mpr ((hd r).mp (by rw [hrd]))
    have hmc : (M.map φ).charpoly = M.charpoly.map φ := Matrix.charpoly_map M φ
    refine (finish_ok (by omega) hn hmax (hmc ▸ hcp2) hA2 (hmc ▸ hsp) ext).sat.mono ?_
    rintro r ⟨k1, k2, k3⟩
    rw [hmc] at k2
    refine ⟨toPoly ext, hxi, φ, by rw [k1]; exact hx1, by rw [k1], hsp, ?_, fun h => absurd (hone.mp h) h1, k2, k3⟩
    intro ν hν ψ hψ
    rw [hx3, mul_comm]
    exact hmin ν hν ψ hψ

end Diag
end Spffl
