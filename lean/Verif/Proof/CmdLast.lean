import Verif.Model.CmdLast
import Verif.Props.CmdMat
import Verif.Props.Diag

/-!
# What f2_pm_mat_diagonalizable prints
-/

namespace Spffl.Cmd
open Res Scan Polynomial VText CPoly F2P Props Props.CP Props.TM
open Props.Cmd103 (padText f2nOut)
open Props.Cmd101 (hex IsHex)
open Diag (Lin)

/-! ### Loops -/

theorem foldlM_prints {σ : Type} {body : σ → ℕ → Cmd σ} (P : ℕ → σ → Prop) (txt : ℕ → List Char) {s0 : σ} (h0 : P 0 s0) :
    ∀ n, (∀ i s, i < n → P i s → ∃ s', P (i + 1) s' ∧ Prints (body s i) (txt i) s') →
      ∃ s, P n s ∧ Prints ((List.range n).foldlM body s0) ((List.range n).flatMap txt) s
  | 0, _ => ⟨s0, h0, prints_pure s0⟩
  | n + 1, hb => by
    obtain ⟨s, h1, h2⟩ := foldlM_prints P txt h0 n fun i s hi => hb i s (by omega)
    obtain ⟨s', h3, h4⟩ := hb n s (by omega) h1
    refine ⟨s', h3, ?_⟩
    rw [List.range_succ, List.foldlM_append, List.flatMap_append]
    refine h2.bind ?_
    rw [List.foldlM_cons]
    exact (h4.bind (prints_pure s')).of_eq (by simp)

/-- The text of the element at a place. -/
def nth {β : Type} (l : List β) (f : β → List Char) (i : ℕ) : List Char := (l[i]?.map f).getD []

theorem flatMap_nth {β : Type} (l : List β) (f : β → List Char) : (List.range l.length).flatMap (nth l f) = l.flatMap f := by
  have : (List.range l.length).map (nth l f) = l.map f := by
    refine List.ext_getElem (by simp) fun i h1 h2 => ?_
    have hi : i < l.length := by simpa using h2
    simp [nth, List.getElem?_eq_getElem hi]
  rw [List.flatMap_def, this, ← List.flatMap_def]

theorem nth_eq {β : Type} {l : List β} {f : β → List Char} {i : ℕ} (hi : i < l.length) : nth l f i = f l[i] := by
  simp [nth, List.getElem?_eq_getElem hi]

theorem foldl_lcm (l : List ℕ) : ∀ a j, l.foldl Nat.lcm a ∣ j ↔ a ∣ j ∧ ∀ y ∈ l, y ∣ j := by
  induction l with
  | nil => simp
  | cons x l ih =>
    intro a j
    rw [List.foldl_cons, ih, Nat.lcm_dvd_iff]
    simp [and_assoc]

/-! ### The texts -/

variable {m : (ZMod 2)[X]} [hmi : Fact (Irreducible m)] {n : ℕ}

/-- The least common multiple of the degrees. -/
noncomputable def degs (l : List ((AdjoinRoot m)[X] × ℕ)) : ℕ := (l.map fun q => q.1.natDegree).foldl Nat.lcm 1

/-- A factor and its degree. -/
noncomputable def facLine (q : (AdjoinRoot m)[X] × ℕ) : List Char :=
  "  factor = ".toList ++ f2nOut q.1 ++ ", deg = ".toList ++ showInt q.1.natDegree ++ ['\n']

/-- An eigenvalue with its multiplicities, and `A` minus it. -/
noncomputable def eigLines (M : Matrix (Fin n) (Fin n) (AdjoinRoot m)) (y : AdjoinRoot m) : List Char :=
  "Eigenvalue ".toList ++ padText y ++ " multiplicity ".toList ++ showInt (M.charpoly.rootMultiplicity y) ++ " nullity ".toList ++
    showInt (n - (M - y • 1).rank : ℕ) ++ "\nA - ".toList ++ padText y ++ " * I =\n".toList ++ matText padText (M - y • 1) ++ ['\n']

/-- What is printed about the given matrix. -/
noncomputable def baseText (M : Matrix (Fin n) (Fin n) (AdjoinRoot m)) (l : List ((AdjoinRoot m)[X] × ℕ)) : List Char :=
  "\nf2_polymod diagonalizable input =\n".toList ++ matText padText M ++ "\nchpoly = ".toList ++ f2nOut M.charpoly ++
    "\nfactors = ".toList ++ facText f2nOut none l ++ ['\n'] ++ l.flatMap facLine ++ "LCM of degrees = ".toList ++ showInt (degs l) ++
    "\nBase modulus = ".toList ++ hex m

/-- What is printed about the splitting field and the matrix over it. -/
noncomputable def splitText (M : Matrix (Fin n) (Fin n) (AdjoinRoot m)) (ys : List (AdjoinRoot m)) : List Char :=
  "\nExtension degree (over F2) = ".toList ++ showInt m.natDegree ++ "\nExtension modulus = ".toList ++ hex m ++ ['\n'] ++ ys.flatMap (eigLines M)

/-- The last lines. -/
noncomputable def endText (w : List Char) (ys : List (AdjoinRoot m)) : List Char :=
  w ++ "\nSplitter modulus: ".toList ++ hex m ++ "\nEigenvalues:\n".toList ++ ys.flatMap fun y => "  ".toList ++ padText y ++ ['\n']

/-! ### The parts of the report -/

theorem showPoly {a : CPoly F2Mod} {f : (AdjoinRoot m)[X]} (h : F2n m a f) : PText.f2nShow a = ok (f2nOut f) := by
  obtain ⟨mm, hc, ht⟩ : ∃ mm, Canon mm ∧ toPoly mm = m := by
    obtain ⟨c, hc⟩ : ∃ c, F2Mod.Rep m c (f.coeff 0) := by
      obtain ⟨c, -, hc⟩ := (sat_false.mp (get_coeff_sat (U := False) (F2Mod.cops_ref hmi.out.ne_zero) h 0))
      exact ⟨c, hc⟩
    exact ⟨c.modulus, hc.cm, hc.hm⟩
  exact (Props.Cmd103.tool hc ht).sh h

theorem degReport_prints {fi : FacInfo (CPoly F2Mod)} {l : List ((AdjoinRoot m)[X] × ℕ)}
    (h : List.Forall₂ (fun (x : CPoly F2Mod × Int) (y : (AdjoinRoot m)[X] × ℕ) => F2n m x.1 y.1 ∧ x.2 = (y.2 : Int)) fi.facs l)
    {k : ℕ} (hk : k ≤ 30) (hk0 : 0 < k) (hl : ∀ y ∈ l, y.1.natDegree ∣ k) :
    Prints (degReport fi) (l.flatMap facLine) (degs l : Int) := by
  have hlen : fi.num_distinct = l.length := h.length_eq
  unfold degReport
  obtain ⟨s, h1, h2⟩ := foldlM_prints (s0 := (1 : Int)) (fun i (s : Int) => s = (degs (l.take i) : Int)) (nth l facLine) rfl fi.num_distinct
    (body := fun (deglcm : Int) (i : Nat) => do
      let factor ← lift (fi.get_ith_factor i)
      out "  factor = ".toList
      put PText.f2nShow factor
      out (", deg = ".toList ++ showInt factor.degree ++ ['\n'])
      lift (int_lcm deglcm factor.degree)) (by
      rintro i s hi rfl
      have hi' : i < fi.facs.length := hi
      have hi2 : i < l.length := by omega
      have hh : F2n m fi.facs[i].1 l[i].1 := (h.get hi' hi2).1
      refine ⟨_, rfl, ?_⟩
      have h1 : degs (l.take i) ∣ k := by
        unfold degs
        rw [foldl_lcm]
        refine ⟨one_dvd _, fun y hy => ?_⟩
        obtain ⟨q, hq, rfl⟩ := List.mem_map.mp hy
        exact hl q (List.mem_of_mem_take hq)
      have h2 : l[i].1.natDegree ∣ k := hl _ (List.getElem_mem hi2)
      have h3 := Nat.le_of_dvd hk0 h1
      have h4 := Nat.le_of_dvd hk0 h2
      have h5 := Nat.pos_of_dvd_of_pos h1 hk0
      have h6 := Nat.pos_of_dvd_of_pos h2 hk0
      have h7 := Nat.mul_le_mul (h3.trans hk) (h4.trans hk)
      refine ((prints_lift (Diag.ith_factor (List.getElem?_eq_getElem hi')).1).bind ((prints_out _).bind ((put_prints (showPoly hh)).bind
        ((prints_out _).bind (prints_lift (a := (degs (l.take (i + 1)) : Int)) ?_))))).of_eq ?_
      · rw [← hh.deg, Diag.int_lcm_nat h5 h6 (by omega)]
        congr 2
        rw [List.take_succ_eq_append_getElem hi2]
        simp only [degs, List.map_append, List.foldl_append]
        rfl
      · rw [nth_eq hi2, ← hh.deg]
        unfold facLine
        generalize "  factor = ".toList = a, ", deg = ".toList = b
        simp only [List.append_assoc, List.nil_append, List.append_nil])
  rw [hlen, flatMap_nth, List.take_length] at *
  rw [h1] at h2
  exact h2

theorem multReport_prints {fi : FacInfo (CPoly F2Mod)} {l : List (AdjoinRoot m × ℕ)} (h : Lin m fi l) {A : TMat F2Mod}
    {M : Matrix (Fin n) (Fin n) (AdjoinRoot m)} (hn : 0 < n) (hmax : (n : Int) ≤ INT_MAX) (hA : F2nMat m A M) {evs : TVec F2Mod}
    (he : List.Forall₂ (F2Mod.Rep m) evs (l.map Prod.fst)) (hc : ∀ y ∈ l, M.charpoly.rootMultiplicity y.1 = y.2) :
    ∃ b, (b = true ↔ ∀ y ∈ l, n - (M - y.1 • 1).rank = y.2) ∧
      Prints (multReport fi A evs l.length true) ((l.map Prod.fst).flatMap (eigLines M)) b := by
  unfold multReport
  obtain ⟨b, hb, h2⟩ := foldlM_prints (s0 := true) (fun i (b : Bool) => b = true ↔ ∀ (j : ℕ) (hj : j < l.length), j < i →
      n - (M - l[j].1 • 1).rank = l[j].2) (nth (l.map Prod.fst) (eigLines M)) (by simp) l.length
    (body := fun (rv : Bool) (i : Nat) => do
      let ev ← lift (TVec.get evs i)
      let A_tI ← lift (TMat.subScalar F2Mod.cops.tops A ev)
      let rank ← lift (TMat.get_rank F2Mod.cops.tops A_tI)
      let nullity ← lift (isub A.num_rows rank)
      let multiplicity ← lift (fi.get_ith_count i)
      out "Eigenvalue ".toList
      put PText.f2ModShow ev
      out (" multiplicity ".toList ++ showInt multiplicity ++ " nullity ".toList ++ showInt nullity ++ "\nA - ".toList)
      put PText.f2ModShow ev
      out " * I =\n".toList
      putLine (showMat f2ModIO) A_tI
      pure (if nullity ≠ multiplicity then false else rv)) (by
      rintro i b hi hb
      obtain ⟨a, -, e2, -, -⟩ := h.get hi
      have hi' : i < evs.length := by rw [he.length_eq, List.length_map]; exact hi
      have hev : F2Mod.Rep m evs[i] l[i].1 := by
        have := he.get hi' (by simpa using hi)
        simpa using this
      have eg : TVec.get evs i = ok evs[i] := by
        unfold TVec.get rd; rw [if_pos hi', List.getElem?_eq_getElem hi']
      obtain ⟨B, eB, hB⟩ := sat_false.mp (C42_diagonal (C42_inst_f2_polymod hmi.out.ne_zero).1 hA hev).2
      obtain ⟨r, er, hr⟩ := C43_f2n hn hn hB
      have hle : r ≤ n := by rw [hr]; exact (Matrix.rank_le_card_width _).trans (by simp)
      have hsub : isub A.num_rows r = ok ((n - r : ℕ) : Int) := by
        unfold isub chk
        rw [hA.shape.nr, if_pos (by unfold INT_MAX at hmax; unfold InInt; omega)]
        congr 1; omega
      have ht := Props.Cmd103.mod_text hev
      have hM : showMat f2ModIO B = ok (matText padText (M - l[i].1 • 1)) := showMat_text hB fun a x h => Props.Cmd103.mod_text h
      refine ⟨if ((n - r : ℕ) : Int) ≠ (l[i].2 : Int) then false else b, ?_, ?_⟩
      · constructor
        · intro hh j hj hji
          split at hh
          · cases hh
          · rename_i hne
            rcases Nat.lt_succ_iff_lt_or_eq.mp hji with hlt | rfl
            · exact hb.mp hh j hj hlt
            · rw [← hr]
              have : ((n - r : ℕ) : Int) = (l[j].2 : Int) := not_not.mp hne
              exact_mod_cast this
        · intro hh
          have h1 : ((n - r : ℕ) : Int) = (l[i].2 : Int) := by
            rw [hr]; exact_mod_cast hh i hi (Nat.lt_succ_self i)
          rw [if_neg (by simpa using h1)]
          exact hb.mpr fun j hj hji => hh j hj (by omega)
      · refine ((prints_lift eg).bind ((prints_lift eB).bind ((prints_lift er).bind ((prints_lift hsub).bind ((prints_lift e2).bind
          ((prints_out _).bind ((put_prints ht).bind ((prints_out _).bind ((put_prints ht).bind ((prints_out _).bind
          ((putLine_prints hM).bind (f := fun _ => pure (if ((n - r : ℕ) : Int) ≠ (l[i].2 : Int) then false else b)) (prints_pure _)))))))))))).of_eq ?_
        have et : nth (l.map Prod.fst) (eigLines M) i = eigLines M l[i].1 := by rw [nth_eq (by simpa using hi), List.getElem_map]
        rw [et]
        unfold eigLines
        rw [hc _ (List.getElem_mem hi)]
        rw [hr]
        generalize "Eigenvalue ".toList = a, " multiplicity ".toList = b, " nullity ".toList = c, "\nA - ".toList = d, " * I =\n".toList = e
        simp only [List.append_assoc, List.nil_append, List.append_nil])
  refine ⟨b, ?_, ?_⟩
  · rw [hb]
    constructor
    · intro hh y hy
      obtain ⟨j, hj, rfl⟩ := List.getElem_of_mem hy
      exact hh j hj hj
    · intro hh j hj _
      exact hh _ (List.getElem_mem hj)
  · have e := flatMap_nth (l.map Prod.fst) (eigLines M)
    rw [List.length_map] at e
    rwa [e] at h2

theorem finishReport_prints (hd : m.natDegree ≤ 30) {cp : CPoly F2Mod} {A : TMat F2Mod} {M : Matrix (Fin n) (Fin n) (AdjoinRoot m)} (hn : 0 < n)
    (hmax : (n : Int) ≤ INT_MAX) (hc : F2n m cp M.charpoly) (hA : F2nMat m A M) (hs : M.charpoly.Splits) (ext : F2P) :
    ∃ b evs ys, Prints (finishReport ext cp A) (ys.flatMap (eigLines M)) (b, ext, evs) ∧ List.Forall₂ (F2Mod.Rep m) evs ys ∧
      ys.Pairwise (fun x y => F2nP.kv m x < F2nP.kv m y) ∧ (∀ y, y ∈ ys ↔ M.charpoly.IsRoot y) ∧ (b = true ↔ Diag.Diagonalizable M) := by
  obtain ⟨fi, l', efi, hL, hl0, hpw, hroot, k2⟩ := Diag.split_factor hd hn hmax hc hs
  obtain ⟨⟨b0, evs⟩, e1, rfl, hev⟩ := Diag.eigenvalues_ok hL hl0
  obtain ⟨b, hb, hp⟩ := multReport_prints hL hn hmax hA hev k2
  refine ⟨b, evs, l'.map Prod.fst, ?_, hev, hpw, hroot, ?_⟩
  · unfold finishReport
    exact (prints_lift efi).then ((prints_lift (Diag.countLinear_ok hL)).then ((prints_lift e1).then ((hp.bind (f := fun rv => pure (rv, ext, evs)) (prints_pure _)).of_eq (by simp))))
  · rw [hb, Diag.diag_iff hs]
    constructor
    · intro hh x hx
      obtain ⟨y, hy, rfl⟩ := List.mem_map.mp ((hroot x).mpr hx)
      rw [k2 y hy, hh y hy]
    · intro hh y hy
      rw [hh y.1 ((hroot y.1).mp (List.mem_map_of_mem (f := Prod.fst) hy)), k2 y hy]

theorem modReport_prints {base ext : F2P} (hb : Canon base) (he : Canon ext) (d : Int) :
    Prints (modReport base d ext) ("Base modulus = ".toList ++ hex (toPoly base) ++ "\nExtension degree (over F2) = ".toList ++ showInt d ++
      "\nExtension modulus = ".toList ++ hex (toPoly ext) ++ ['\n']) () := by
  unfold modReport
  refine ((prints_out _).bind ((put_prints (print_ok hb.ne_nil)).bind ((prints_out _).bind ((put_prints (print_ok he.ne_nil)).bind (prints_out _))))).of_eq ?_
  simp only [hex, List.append_assoc]

/-- The facts about the printed factors, field and eigenvalues. -/
structure Report (M : Matrix (Fin n) (Fin n) (AdjoinRoot m)) (l : List ((AdjoinRoot m)[X] × ℕ)) {μ : (ZMod 2)[X]} [Fact (Irreducible μ)]
    (φ : AdjoinRoot m →+* AdjoinRoot μ) (ys : List (AdjoinRoot μ)) : Prop where
  factors : FactoredK (f2nKey m) M.charpoly none l
  splits : (M.charpoly.map φ).Splits
  least : ∀ (ν : (ZMod 2)[X]) (_ : Fact (Irreducible ν)) (ψ : AdjoinRoot m →+* AdjoinRoot ν), (M.charpoly.map ψ).Splits → μ.natDegree ∣ ν.natDegree
  degree : μ.natDegree = degs l * m.natDegree
  same : M.charpoly.Splits → μ = m
  smallest : ¬ M.charpoly.Splits → ∀ ν : (ZMod 2)[X], Irreducible ν → ν.natDegree = μ.natDegree → nval μ ≤ nval ν
  ascending : ys.Pairwise (fun x y => F2nP.kv μ x < F2nP.kv μ y)
  roots : ∀ y, y ∈ ys ↔ (M.charpoly.map φ).IsRoot y

theorem diagReport_prints (W : ℕ → BitVec 64) {qs : List (F2Mod × ℕ) → List (F2Mod × ℕ)}
    {vs : List F2Mod → List F2Mod} (hqs : IsQsort F2Mod.lt qs) (hvs : IsSort F2Mod.lt vs) {A : TMat F2Mod}
    {M : Matrix (Fin n) (Fin n) (AdjoinRoot m)} (hn : 0 < n) (hmax : (n : Int) ≤ INT_MAX) (hA : F2nMat m A M)
    {m' : (ZMod 2)[X]} [Fact (Irreducible m')] (hm' : m'.natDegree ≤ 30) (χ : AdjoinRoot m →+* AdjoinRoot m') (hs : (M.charpoly.map χ).Splits) :
    ∃ (μ : (ZMod 2)[X]) (_ : Fact (Irreducible μ)) (φ : AdjoinRoot m →+* AdjoinRoot μ) (l : List ((AdjoinRoot m)[X] × ℕ)) (ys : List (AdjoinRoot μ))
      (b : Bool) (ext : F2P) (evs : TVec F2Mod), Report M l φ ys ∧ Canon ext ∧ toPoly ext = μ ∧ List.Forall₂ (F2Mod.Rep μ) evs ys ∧
      (b = true ↔ Diag.Diagonalizable (M.map φ)) ∧
      Prints (diagReport (fun k => ok (W k)) qs vs A) (baseText M l ++ splitText (M.map φ) ys) (b, ext, evs) := by
  have hfm := finite_adjoin m
  have hfm' := finite_adjoin m'
  have hdeg : M.charpoly.natDegree = n := by rw [Matrix.charpoly_natDegree_eq_dim, Fintype.card_fin]
  have hmon := Matrix.charpoly_monic M
  have hmpos : 0 < m.natDegree := hmi.out.natDegree_pos
  obtain ⟨r', hr1, hr2⟩ := Diag.card_hom χ
  have hr0 : 0 < r' := by
    rcases Nat.eq_zero_or_pos r' with rfl | h
    · rw [mul_zero] at hr1
      have := (Fact.out : Irreducible m').natDegree_pos
      omega
    · exact h
  have hmle : m.natDegree ≤ 30 := by
    have := Nat.le_mul_of_pos_right m.natDegree hr0
    omega
  obtain ⟨cp, ecp, hcp⟩ := LA.C80_f2n hn hA
  obtain ⟨fi, efi, l, g1, g2, g3, g4, g5⟩ := C57_factor_partial hmle hcp (by omega) (by omega)
  have hfac : FactoredK (f2nKey m) M.charpoly none l := .inr ⟨by omega, .inl ⟨hmon, rfl⟩, g2, g3, g4⟩
  have hden : FacInfo.Den (PRep (F2Mod.Rep m)) fi l none := by
    rcases g5 with ⟨-, g5⟩ | ⟨g5, -⟩
    · refine ⟨g1, ?_⟩
      rw [g5]; exact .none
    · exact absurd hmon g5
  rw [hmon.leadingCoeff, C_1, one_mul] at g4
  have hr3 : r' ≤ 30 := by
    have := Nat.le_mul_of_pos_left r' hmpos
    omega
  have hdv := (Diag.splits_prod χ g3 g4 hr2).mp hs
  have hrep := degReport_prints g1 hr3 hr0 hdv
  have hd : ∀ j, degs l ∣ j ↔ ∀ y ∈ l, y.1.natDegree ∣ j := by
    intro j
    unfold degs
    rw [foldl_lcm, List.forall_mem_map]
    simp only [one_dvd, true_and]
  have hdr : degs l ∣ r' := (hd r').mpr hdv
  have hd0 : 0 < degs l := Nat.pos_of_dvd_of_pos hdr hr0
  obtain ⟨a, ea, ha⟩ := sat_false.mp (cget_sat (U := False) hA.shape hn (hA.ent ⟨0, hn⟩ ⟨0, hn⟩))
  have hdle : m.natDegree * degs l ≤ 30 := by
    have := Nat.mul_le_mul_left m.natDegree (Nat.le_of_dvd hr0 hdr)
    omega
  have hmin : ∀ (ν : (ZMod 2)[X]) (_ : Fact (Irreducible ν)) (ψ : AdjoinRoot m →+* AdjoinRoot ν), (M.charpoly.map ψ).Splits →
      m.natDegree * degs l ∣ ν.natDegree := by
    intro ν hν ψ hψ
    have := finite_adjoin ν
    obtain ⟨r, k1, k2⟩ := Diag.card_hom ψ
    rw [k1]
    exact Nat.mul_dvd_mul_left _ ((hd r).mpr ((Diag.splits_prod ψ g3 g4 k2).mp hψ))
  have hone : M.charpoly.Splits ↔ degs l = 1 := by
    have := Diag.splits_prod (RingHom.id (AdjoinRoot m)) g3 g4 (r := 1) (pow_one _).symm
    rw [Polynomial.map_id, ← hd, Nat.dvd_one] at this
    exact this
  have hfd : F2P.find_degree a.modulus = ok m.natDegree := by
    have := find_degree_ok a.modulus
    rw [ha.hm] at this
    exact this
  have hmul : imul (degs l) (m.natDegree : Int) = ok ((degs l * m.natDegree : ℕ) : Int) := by
    rw [imul, chk_ok (by rw [← Nat.cast_mul, mul_comm]; unfold InInt; omega)]
    rfl
  have hM : showMat f2ModIO A = ok (matText padText M) := showMat_text hA fun a x h => Props.Cmd103.mod_text h
  have hfacP : Prints (putFac PText.f2nShow fi) (facText f2nOut none l) () := putFac_prints (Props.Cmd103.tool ha.cm ha.hm) hden
  have key : ∀ {γ : Type} {f : CPoly F2Mod → Int → F2Mod → Int → Cmd γ} {t : List Char} {g : γ},
      Prints (f cp (degs l) a ((degs l * m.natDegree : ℕ) : Int)) ("Base modulus = ".toList ++ hex m ++ t) g → Prints (do
        out "\nf2_polymod diagonalizable input =\n".toList
        putLine (showMat f2ModIO) A
        let chpol ← lift (LinAlg.f2n_char_poly A)
        out "chpoly = ".toList
        putLine PText.f2nShow chpol
        let base ← lift (F2nP.factor chpol)
        out "factors = ".toList
        putFac PText.f2nShow base
        out ['\n']
        let deglcm ← degReport base
        out ("LCM of degrees = ".toList ++ showInt deglcm ++ ['\n'])
        let a ← lift (TMat.cget A 0 0)
        let base_degree ← lift (F2P.find_degree a.modulus)
        let ext_degree ← lift (imul deglcm base_degree)
        f chpol deglcm a ext_degree) (baseText M l ++ t) g := by
    intro γ f t g hf
    refine ((prints_out _).bind ((putLine_prints hM).bind ((prints_lift ecp).bind ((prints_out _).bind ((putLine_prints (showPoly hcp)).bind
      ((prints_lift efi).bind ((prints_out _).bind (hfacP.bind ((prints_out _).bind (hrep.bind ((prints_out _).bind ((prints_lift ea).bind
      ((prints_lift hfd).bind ((prints_lift hmul).bind hf)))))))))))))).of_eq ?_
    have e1 : "\nchpoly = ".toList = ['\n'] ++ "chpoly = ".toList := rfl
    have e2 : "\nfactors = ".toList = ['\n'] ++ "factors = ".toList := rfl
    have e3 : "\nBase modulus = ".toList = ['\n'] ++ "Base modulus = ".toList := rfl
    unfold baseText
    rw [e1, e2, e3]
    generalize "\nf2_polymod diagonalizable input =\n".toList = a, "chpoly = ".toList = b, "factors = ".toList = c, "Base modulus = ".toList = d,
      "LCM of degrees = ".toList = e
    simp only [List.append_assoc, List.nil_append]
  unfold diagReport
  by_cases h1 : degs l = 1
  · obtain ⟨b, evs, ys, k1, k2, k3, k4, k5⟩ := finishReport_prints hmle hn hmax hcp hA (hone.mpr h1) a.modulus
    refine ⟨m, hmi, RingHom.id _, l, ys, b, a.modulus, evs, ⟨hfac, ?_, ?_, ?_, fun _ => rfl, fun h => absurd (hone.mpr h1) h, k3, ?_⟩, ha.cm, ha.hm, k2,
      by simpa using k5, key (f := fun chpol deglcm a ext_degree => _) ?_⟩
    · rw [Polynomial.map_id]; exact hone.mpr h1
    · intro ν hν ψ hψ
      have := hmin ν hν ψ hψ
      rwa [h1, mul_one] at this
    · rw [h1, one_mul]
    · rwa [Polynomial.map_id]
    · rw [if_pos (by exact_mod_cast h1), h1, one_mul]
      refine ((modReport_prints ha.cm ha.cm _).bind k1).of_eq ?_
      rw [ha.hm]
      unfold splitText
      simp only [List.append_assoc]
      rfl
  · have hd2 : 2 ≤ degs l := by omega
    have hm15 : m.natDegree ≤ 15 := by
      have := Nat.mul_le_mul_left m.natDegree hd2
      omega
    have hge : 2 ≤ degs l * m.natDegree := le_trans hd2 (Nat.le_mul_of_pos_right _ hmpos)
    rw [mul_comm] at hdle
    obtain ⟨ext, eext, hx1, hx2, hx3, hx4, hx5⟩ := sat_false.mp (find_irreducible_sat (some_mask W) (d := degs l * m.natDegree) (by omega)
      (by unfold INT_MAX; omega))
    have hcu := units_small_f2 hmi.out.ne_zero hm15
    obtain ⟨_, eg, g, p, rfl, hg1, hg2, hg3, -⟩ := sat_false.mp (C60_f2_generator_partial (some_mask W) ha.cm ha.hm hmi.out (by unfold INT_MAX; omega)
      (by omega) (Units.powOk_of_small Nat.card_pos hcu))
    have hw := hg3.1.ne_zero
    have hgen : IsGen (AdjoinRoot.mk m p) := fun u => hg3.2 u u.isUnit
    have hxi : Fact (Irreducible (toPoly ext)) := ⟨hx2⟩
    have hfx := finite_adjoin (toPoly ext)
    obtain ⟨o, eo, ho⟩ := LA.C86_prep_partial (m2 := toPoly ext) hvs (by unfold INT_MAX; omega) (by omega) hg1 hx1 rfl
    obtain ⟨y, hy⟩ := (Convert.root_iff_dvd (m2 := toPoly ext) hgen).mpr (by rw [hx3]; exact Dvd.intro_left _ rfl)
    cases o with
    | none => exact absurd hy (ho y)
    | some xg =>
      obtain ⟨v, hv1, hv2, -⟩ := ho
      obtain ⟨φ, -, -, -, -, hpoly, hmat⟩ := LA.C86_convert_partial hqs hmle hg1 hv1 hw hgen hv2
      obtain ⟨cp2, ecp2, hcp2⟩ := hpoly _ _ hcp
      obtain ⟨A2, eA2, hA2⟩ := hmat _ _ _ _ hn hn hA
      obtain ⟨r, k1, k2⟩ := Diag.card_hom φ
      have hrd : r = degs l := by
        rw [hx3, mul_comm] at k1
        exact (Nat.eq_of_mul_eq_mul_left hmpos k1).symm
      have hsp : (M.charpoly.map φ).Splits := (Diag.splits_prod φ g3 g4 k2).mpr ((hd r).mp (by rw [hrd]))
      have hmc : (M.map φ).charpoly = M.charpoly.map φ := Matrix.charpoly_map M φ
      obtain ⟨b, evs, ys, k1, k2, k3, k4, k5⟩ := finishReport_prints (by omega) hn hmax (hmc ▸ hcp2) hA2 (hmc ▸ hsp) ext
      rw [hmc] at k4
      refine ⟨toPoly ext, hxi, φ, l, ys, b, ext, evs, ⟨hfac, hsp, ?_, hx3, fun h => absurd (hone.mp h) h1, fun _ ν hν hdg => hx5 ν hν (hdg.trans hx3) ?_,
        k3, k4⟩, hx1, rfl, k2, k5, key (f := fun chpol deglcm a ext_degree => _) ?_⟩
      · intro ν hν ψ hψ
        rw [hx3, mul_comm]
        exact hmin ν hν ψ hψ
      · intro h0
        have hX := (Polynomial.X_dvd_iff.mpr h0)
        have := natDegree_eq_of_degree_eq (degree_eq_degree_of_associated ((Polynomial.irreducible_X.dvd_irreducible_iff_associated hν).mp hX))
        rw [natDegree_X] at this
        omega
      · rw [if_neg (by exact_mod_cast h1)]
        refine ((prints_lift eext).then ((modReport_prints ha.cm hx1 _).bind ((prints_lift eg).then ((prints_lift eo).then
          ((prints_lift ecp2).then ((prints_lift eA2).then k1)))))).of_eq ?_
        rw [ha.hm]
        unfold splitText
        simp only [List.append_assoc, hx3]

end Spffl.Cmd
