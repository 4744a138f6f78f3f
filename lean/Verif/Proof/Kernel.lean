/-
get_kernel_basis of tmatrix over a field.
-/
import Verif.Proof.RowEchelon

namespace Spffl
open Res

variable {U : Prop} {α F : Type} [Field F] {O : TOps α} {rep : α → F → Prop} {m n : ℕ}

theorem leader_row (H : EltRef U O rep) {A : TMat α} {M : Matrix (Fin m) (Fin n) F} (hA : MRep rep A M) {zero : α} (hz : rep zero 0)
    {r : ℕ} {p : Fin r → Fin n} (he : IsEchelon M r p) (i : Fin r) :
    At A.rows i (fun v => (TVec.find_leader_pos O zero v).Sat U (fun l => l = some (p i : ℕ))) := by
  refine (hA.rowRep (i.2.trans_le he.le)).mono fun v hv => (find_leader_sat H.eqRef hv hz).mono fun l hl => ?_
  cases l with
  | none => exact absurd hl (he.row_ne_zero i.2)
  | some q =>
    obtain ⟨hq, h1, h2⟩ := hl
    have := he.leader (i := ⟨i, i.2.trans_le he.le⟩) i.2 h1 h2
    rw [← congrArg Fin.val this]

theorem freeFlags_sat (H : EltRef U O rep) {A : TMat α} {M : Matrix (Fin m) (Fin n) F} (hA : MRep rep A M) {zero : α} (hz : rep zero 0)
    {r : ℕ} {p : Fin r → Fin n} (he : IsEchelon M r p) :
    (TMat.freeFlags O A zero r).Sat U (fun fl => fl.length = n ∧ ∀ j, j < n → ∃ b, fl[j]? = some b ∧ (b = true ↔ ∀ q : Fin r, (p q : ℕ) ≠ j)) := by
  unfold TMat.freeFlags
  rw [hA.shape.nc]
  refine (forUp_sat (fun i fl => fl.length = n ∧ ∀ j, j < n → ∃ b, fl[j]? = some b ∧ (b = true ↔ ∀ q : Fin r, (q : ℕ) < i → (p q : ℕ) ≠ j)) (Nat.zero_le _)
    ⟨by simp, fun j hj => ⟨true, by simp [hj], by simp⟩⟩ ?_).mono fun fl ⟨h1, h2⟩ => ⟨h1, fun j hj => ?_⟩
  · intro i fl _ hi ⟨hl, hf⟩
    obtain ⟨v, hv, hv2⟩ := leader_row H hA hz he ⟨i, hi⟩
    unfold rd
    have hv : A.rows[i]? = some v := hv
    rw [hv]
    simp only [ok_bind]
    refine hv2.bind fun l hl2 => ?_
    subst hl2
    dsimp only
    rw [wr_ok (by rw [hl]; exact (p ⟨i, hi⟩).2), Sat_ok]
    refine ⟨by simpa using hl, fun j hj => ?_⟩
    by_cases hjp : (p ⟨i, hi⟩ : ℕ) = j
    · subst hjp
      exact ⟨false, List.getElem?_set_self (by omega), by simp only [Bool.false_eq_true, false_iff]; intro h; exact h ⟨i, hi⟩ (by simp) rfl⟩
    · obtain ⟨b, hb1, hb2⟩ := hf j hj
      refine ⟨b, by rw [List.getElem?_set_ne hjp]; exact hb1, hb2.trans ⟨fun h q hq => ?_, fun h q hq => h q (by omega)⟩⟩
      by_cases hqi : (q : ℕ) = i
      · have : q = ⟨i, hi⟩ := Fin.ext hqi
        rw [this]; exact hjp
      · exact h q (by omega)
  · obtain ⟨b, hb1, hb2⟩ := h2 j hj
    exact ⟨b, hb1, hb2.trans ⟨fun h q => h q q.2, fun h q _ => h q⟩⟩

theorem freeIndices_sat {fl : List Bool} {g : ℕ → Prop} [DecidablePred g] (hf : ∀ j, j < n → ∃ b, fl[j]? = some b ∧ (b = true ↔ g j)) :
    (TMat.freeIndices fl n).Sat U (fun r => r.1.take ((List.range n).filter g).length = (List.range n).filter g ∧
      r.1.length = n) := by
  unfold TMat.freeIndices
  refine (forUp_sat (fun i (st : List ℕ × ℕ) => st.1.length = n ∧ st.2 = ((List.range i).filter g).length ∧ st.1.take st.2 = (List.range i).filter g) (Nat.zero_le _)
    ⟨by simp, by simp, by simp⟩ ?_).mono fun r ⟨h1, h2, h3⟩ => ⟨by rw [← h2, h3], h1⟩
  intro i st _ hi ⟨h1, h2, h3⟩
  obtain ⟨b, hb1, hb2⟩ := hf i hi
  unfold rd; rw [hb1]
  simp only [ok_bind]
  have hle : st.2 ≤ i := by rw [h2]; exact (List.length_filter_le _ _).trans (by simp)
  by_cases hb : b = true
  · rw [if_pos hb, wr_ok (by omega)]
    simp only [ok_bind, Sat_ok]
    have hg : g i := hb2.mp hb
    refine ⟨by simpa using h1, by simp [List.range_succ, List.filter_append, hg, h2], ?_⟩
    rw [List.range_succ, List.filter_append]
    simp only [hg, decide_true, List.filter_cons_of_pos, List.filter_nil]
    rw [← h3, List.take_add_one, List.take_set_of_le (Nat.le_refl _), List.getElem?_set_self (by omega)]
    rfl
  · rw [if_neg hb, Sat_ok]
    have hg : ¬ g i := fun h => hb (hb2.mpr h)
    refine ⟨h1, by simp [List.range_succ, List.filter_append, hg, h2], ?_⟩
    rw [List.range_succ, List.filter_append]
    simp [hg, h3]

/-- the free columns, as computed -/
theorem freeList {r : ℕ} {p : Fin r → Fin n} (hp : Function.Injective p) :
    ((List.range n).filter fun j => ∀ q : Fin r, (p q : ℕ) ≠ j).length = n - r := by
  classical
  have hnd : ((List.range n).filter fun j => ∀ q : Fin r, (p q : ℕ) ≠ j).Nodup := List.nodup_range.filter _
  rw [← List.toFinset_card_of_nodup hnd]
  have : ((List.range n).filter fun j => ∀ q : Fin r, (p q : ℕ) ≠ j).toFinset =
      Finset.range n \ (Finset.univ.image fun q : Fin r => (p q : ℕ)) := by
    ext j; simp
  rw [this, Finset.card_sdiff_of_subset, Finset.card_range, Finset.card_image_of_injective, Finset.card_univ, Fintype.card_fin]
  · intro a b h; exact hp (Fin.ext h)
  · intro j hj
    simp only [Finset.mem_image, Finset.mem_univ, true_and] at hj
    obtain ⟨q, rfl⟩ := hj
    simp

theorem freeCols {r : ℕ} {p : Fin r → Fin n} (hp : Function.Injective p) :
    ∃ e : Fin (n - r) → Fin n, FreeCols p e ∧
      ∀ t : Fin (n - r), ((List.range n).filter fun j => ∀ q : Fin r, (p q : ℕ) ≠ j)[(t : ℕ)]? = some (e t : ℕ) := by
  have hl := freeList hp
  set L := (List.range n).filter fun j => ∀ q : Fin r, (p q : ℕ) ≠ j with hL
  have hnd : L.Nodup := List.nodup_range.filter _
  have hmem : ∀ t : Fin (n - r), L[(t : ℕ)]'(by rw [hl]; exact t.2) ∈ L := fun t => List.getElem_mem _
  have hm : ∀ j, j ∈ L ↔ j < n ∧ ∀ q : Fin r, (p q : ℕ) ≠ j := by intro j; simp [hL]
  refine ⟨fun t => ⟨L[(t : ℕ)]'(by rw [hl]; exact t.2), ((hm _).mp (hmem t)).1⟩, ⟨fun a b hab => ?_, fun q t h => ?_, fun c => ?_⟩, fun t => ?_⟩
  · have := congrArg Fin.val hab
    exact Fin.ext ((List.Nodup.getElem_inj_iff hnd).mp this)
  · exact ((hm _).mp (hmem t)).2 q (congrArg Fin.val h)
  · by_cases h : ∃ q, p q = c
    · exact Or.inl h
    · right
      have : (c : ℕ) ∈ L := (hm _).mpr ⟨c.2, fun q hq => h ⟨q, Fin.ext hq⟩⟩
      obtain ⟨t, ht, htc⟩ := List.getElem_of_mem this
      exact ⟨⟨t, by omega⟩, Fin.ext htc⟩
  · exact List.getElem?_eq_getElem _

theorem depLoop_sat (H : EltRef U O rep) (N : NegRef U O rep) {A : TMat α} {M : Matrix (Fin m) (Fin n) F} (hA : MRep rep A M) {zero : α} (hz : rep zero 0)
    {r : ℕ} {p : Fin r → Fin n} (he : IsEchelon M r p) {d i fi : ℕ} (hi : i < d) (hfi : fi < n) {s0 : TMat α} (hs0 : Shape s0 d n)
    (h0 : ∀ q : Fin r, At2 s0 i (p q) (fun e => rep e 0)) :
    (TMat.depLoop O A zero r fi i s0).Sat U (fun t => Shape t d n ∧
      (∀ q : Fin r, At2 t i (p q) (fun e => rep e (- M ⟨q, q.2.trans_le he.le⟩ ⟨fi, hfi⟩))) ∧
      ∀ i' j', (i' ≠ i ∨ ∀ q, j' ≠ (p q : ℕ)) → ent t i' j' = ent s0 i' j') := by
  unfold TMat.depLoop
  refine (forUp_sat (fun l t => Shape t d n ∧
      (∀ q : Fin r, At2 t i (p q) (fun e => rep e (if (q : ℕ) < l then - M ⟨q, q.2.trans_le he.le⟩ ⟨fi, hfi⟩ else 0))) ∧
      ∀ i' j', (i' ≠ i ∨ ∀ q, j' ≠ (p q : ℕ)) → ent t i' j' = ent s0 i' j') (Nat.zero_le _) ⟨hs0, fun q => (h0 q).mono fun e he => by simpa using he, fun _ _ _ => rfl⟩ ?_).mono
    fun t ⟨h1, h2, h3⟩ => ⟨h1, fun q => (h2 q).mono fun e he => by simpa using he, h3⟩
  intro l t _ hl ⟨h1, h2, h3⟩
  have hlm : l < m := hl.trans_le he.le
  refine (get_sat (hA.at hlm hfi)).bind fun x hx => ?_
  refine (H.eq hx hz).bind fun b hb => ?_
  by_cases hbt : b = true
  · rw [if_pos hbt, Sat_ok]
    refine ⟨h1, fun q => (h2 q).mono fun e he' => ?_, h3⟩
    by_cases hql : (q : ℕ) = l
    · rw [if_neg (by omega)] at he'
      have hx0 : M ⟨q, q.2.trans_le he.le⟩ ⟨fi, hfi⟩ = 0 := by
        rw [← hb.mp hbt]; congr 1; exact Fin.ext hql
      rw [if_pos (by omega), hx0, neg_zero]; exact he'
    · by_cases hq2 : (q : ℕ) < l
      · rw [if_pos hq2] at he'; rwa [if_pos (by omega)]
      · rw [if_neg hq2] at he'; rwa [if_neg (by omega)]
  · rw [if_neg hbt]
    obtain ⟨v, hv, hv2⟩ := leader_row H hA hz he ⟨l, hl⟩
    have hv : A.rows[l]? = some v := hv
    have : rd A.rows l = ok v := by unfold rd; rw [hv]
    rw [this]
    simp only [ok_bind]
    refine hv2.bind fun o ho => ?_
    subst ho
    dsimp only
    refine (put_sat (P := fun e => rep e (- M ⟨l, hlm⟩ ⟨fi, hfi⟩)) h1 hi (p ⟨l, hl⟩).2 ?_).mono fun t' ⟨g1, g2, g3⟩ => ⟨g1, fun q => ?_, fun i' j' h => ?_⟩
    · exact (get_sat (hA.at hlm hfi)).bind fun y hy => N.neg hy
    · by_cases hql : (q : ℕ) = l
      · have : q = ⟨l, hl⟩ := Fin.ext hql
        subst this
        exact g2.mono fun e he => by simpa using he
      · refine ((h2 q).congr (g3 _ _ (Or.inr fun h => hql ?_))).mono fun e he' => ?_
        · exact congrArg Fin.val (he.mono.injective (Fin.ext h))
        · by_cases hq2 : (q : ℕ) < l
          · rw [if_pos hq2] at he'; rwa [if_pos (by omega)]
          · rw [if_neg hq2] at he'; rwa [if_neg (by omega)]
    · rw [g3 i' j' (h.imp id fun h => h _)]
      exact h3 i' j' h

/-- the kernel basis; in every basis vector the last non-zero entry is 1 -/
theorem kernel_last_sat (H : EltRef U O rep) (N : NegRef U O rep) {A : TMat α} {M : Matrix (Fin m) (Fin n) F} (hm : 0 < m) (hn : 0 < n) (hA : MRep rep A M)
    {zero one : α} (hz : rep zero 0) (ho : rep one 1) :
    (TMat.get_kernel_basis O A zero one).Sat U (fun r => match r with
      | none => LinearMap.ker M.mulVecLin = ⊥
      | some B => ∃ d, d = n - M.rank ∧ 0 < d ∧ ∃ K : Matrix (Fin d) (Fin n) F, MRep rep B K ∧ LinearIndependent F (fun i => K i) ∧
          Submodule.span F (Set.range fun i => K i) = LinearMap.ker M.mulVecLin ∧
          ∀ i, ∃ c, K i c = 1 ∧ ∀ c', c < c' → K i c' = 0) := by
  unfold TMat.get_kernel_basis
  refine (ref_sat H hm hn hA).bind fun B hB => ?_
  obtain ⟨M', hB, ⟨r, p, hred⟩, hR⟩ := hB
  have hker : LinearMap.ker M'.mulVecLin = LinearMap.ker M.mulVecLin := by
    ext x; simpa using hR.ker x
  refine (rank_rr_sat H hm hn hB hred.toIsEchelon).bind fun rk hrk => ?_
  subst hrk
  obtain ⟨e, hF, hL⟩ := freeCols hred.mono.injective
  rw [hB.shape.nc, hA.shape.nc]
  simp only
  by_cases hd : n - rk = 0
  · rw [if_pos hd, Sat_ok]
    show LinearMap.ker M.mulVecLin = ⊥
    rw [← hker, ← KerRows.span_eq (K := Matrix.of fun (i : Fin (n - rk)) _ => (0 : F)) hred hF
      ⟨fun i => absurd i.2 (by omega), fun i => absurd i.2 (by omega)⟩]
    rw [Submodule.span_eq_bot]
    rintro _ ⟨i, rfl⟩
    exact absurd i.2 (by omega)
  rw [if_neg hd]
  refine (tabulate_sat (P := fun _ _ e => rep e 0) (by omega) hn fun i j _ _ => (show (ok zero : Res α).Sat U _ from hz)).bind fun b0 hh => ?_
  obtain ⟨hb0, hb1⟩ := hh
  refine (freeFlags_sat H hB hz hred.toIsEchelon).bind fun fl hfl => ?_
  refine (freeIndices_sat (g := fun j => ∀ q : Fin rk, (p q : ℕ) ≠ j) hfl.2).bind fun fi hfi => ?_
  have hfe : ∀ t : Fin (n - rk), rd fi.1 t = ok (e t : ℕ) := by
    intro t
    have h1 := hL t
    rw [← hfi.1, List.getElem?_take_of_lt (by rw [freeList hred.mono.injective]; exact t.2)] at h1
    unfold rd; rw [h1]
  refine (forUp_sat (fun i b => Shape b (n - rk) n ∧
    (∀ l (hl : l < n - rk), l < i → (∀ q : Fin rk, At2 b l (p q) (fun x => rep x (- M' ⟨q, q.2.trans_le hred.le⟩ (e ⟨l, hl⟩)))) ∧
      ∀ t : Fin (n - rk), At2 b l (e t) (fun x => rep x (if (⟨l, hl⟩ : Fin (n - rk)) = t then 1 else 0))) ∧
    ∀ l j, i ≤ l → ent b l j = ent b0 l j) (Nat.zero_le _) ⟨hb0, fun l hl h => by omega, fun _ _ _ => rfl⟩ ?_).bind fun b hh => ?_
  · intro i b _ hi ⟨h1, h2, h3⟩
    rw [hfe ⟨i, hi⟩]
    simp only [ok_bind]
    refine (put_sat (P := fun e => rep e 1) h1 hi (e ⟨i, hi⟩).2 (r := ok one) ho).bind fun b1 hh => ?_
    obtain ⟨g1, g2, g3⟩ := hh
    have gz : ∀ j, j < n → j ≠ (e ⟨i, hi⟩ : ℕ) → At2 b1 i j (fun x => rep x 0) := fun j hj hne => by
      refine (hb1 i j hi hj).congr ?_
      rw [g3 i j (Or.inr hne), h3 i j le_rfl]
    refine (depLoop_sat H N hB hz hred.toIsEchelon hi (e ⟨i, hi⟩).2 g1 fun q =>
      gz _ (p q).2 fun h => hF.disj q ⟨i, hi⟩ (Fin.ext h)).mono fun t ⟨k1, k2, k3⟩ => ⟨k1, fun l hl hli => ?_, fun l j hl => ?_⟩
    · by_cases hli' : l = i
      · subst hli'
        refine ⟨k2, fun t' => ?_⟩
        have hE := k3 l (e t' : ℕ) (Or.inr fun q h => hF.disj q t' (Fin.ext h.symm))
        by_cases ht : (⟨l, hl⟩ : Fin (n - rk)) = t'
        · subst ht; simp only [if_true]; exact g2.congr hE
        · rw [if_neg ht]
          exact (gz _ (e t').2 fun h => ht (hF.inj (Fin.ext h)).symm).congr hE
      · obtain ⟨q1, q2⟩ := h2 l hl (by omega)
        have hE : ∀ j, ent t l j = ent b l j := fun j => (k3 l j (Or.inl hli')).trans (g3 l j (Or.inl hli'))
        exact ⟨fun q => (q1 q).congr (hE _), fun t => (q2 t).congr (hE _)⟩
    · rw [k3 l j (Or.inl (by omega)), g3 l j (Or.inl (by omega))]
      exact h3 l j (by omega)
  · obtain ⟨h1, h2, _⟩ := hh
    rw [Sat_ok]
    classical
    let K : Matrix (Fin (n - rk)) (Fin n) F := Matrix.of fun i c =>
      if h : ∃ q, p q = c then - M' ⟨h.choose, h.choose.2.trans_le hred.le⟩ (e i) else if c = e i then 1 else 0
    have hK : KerRows M' hred.le p e K := by
      constructor
      · intro i t
        have : ¬ ∃ q, p q = e t := fun ⟨q, hq⟩ => hF.disj q t hq
        simp only [K, Matrix.of_apply, dif_neg this]
        by_cases hit : i = t
        · simp [hit]
        · rw [if_neg hit, if_neg fun h => hit (hF.inj h).symm]
      · intro i q
        have hex : ∃ q', p q' = p q := ⟨q, rfl⟩
        simp only [K, Matrix.of_apply, dif_pos hex]
        rw [hred.mono.injective hex.choose_spec]
    refine ⟨n - rk, by rw [← hR.rank, hred.toIsEchelon.rank_eq], by omega, K, ⟨h1, fun i c => ?_⟩, KerRows.indep hK.free, by rw [hK.span_eq hred hF, hker],
      fun i => ⟨e i, by rw [hK.free, if_pos rfl], fun c' hc' => ?_⟩⟩
    swap
    · rcases hF.cover c' with ⟨q, rfl⟩ | ⟨t, rfl⟩
      · rw [hK.dep, hred.left q _ hc', neg_zero]
      · rw [hK.free, if_neg fun h => by rw [h] at hc'; exact lt_irrefl _ hc']
    obtain ⟨q1, q2⟩ := h2 i i.2 i.2
    rcases hF.cover c with ⟨q, rfl⟩ | ⟨t, rfl⟩
    · exact (q1 q).mono fun x hx => by rw [hK.dep]; exact hx
    · exact (q2 t).mono fun x hx => by rw [hK.free]; exact hx

theorem kernel_sat (H : EltRef U O rep) (N : NegRef U O rep) {A : TMat α} {M : Matrix (Fin m) (Fin n) F} (hm : 0 < m) (hn : 0 < n) (hA : MRep rep A M)
    {zero one : α} (hz : rep zero 0) (ho : rep one 1) :
    (TMat.get_kernel_basis O A zero one).Sat U (fun r => match r with
      | none => LinearMap.ker M.mulVecLin = ⊥
      | some B => ∃ d, d = n - M.rank ∧ 0 < d ∧ ∃ K : Matrix (Fin d) (Fin n) F, MRep rep B K ∧ LinearIndependent F (fun i => K i) ∧
          Submodule.span F (Set.range fun i => K i) = LinearMap.ker M.mulVecLin) := by
  refine (kernel_last_sat H N hm hn hA hz ho).mono fun r hr => ?_
  cases r with
  | none => exact hr
  | some B =>
    obtain ⟨d, h1, h2, K, h3, h4, h5, -⟩ := hr
    exact ⟨d, h1, h2, K, h3, h4, h5⟩

end Spffl
