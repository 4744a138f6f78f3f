import Verif.Model.CmdPm
import Verif.Proof.CmdRes
import Verif.Props.Lists
import Verif.Props.MinPoly
import Verif.Props.CmdF2n

/-! Rules for the commands on residues modulo polynomials over Fp and F2^n. -/

namespace Spffl.Cmd
open Res Scan Lists Spffl.Props Polynomial
open CPoly (PRep)
open Spffl.Props.CM (F2nM)

/-! ### Residues -/

section
variable {K : Type} [Field K] {M f : K[X]} {x : AdjoinRoot M}

/-- The representative of least degree. -/
noncomputable def low (M : K[X]) (x : AdjoinRoot M) : K[X] := (AdjoinRoot.mk_surjective x).choose % M

theorem low_deg (hM : M ≠ 0) : (low M x).degree < M.degree := EuclideanDomain.mod_lt _ hM

theorem mk_low : AdjoinRoot.mk M (low M x) = x := by
  unfold low
  rw [CMod.mk_mod]
  exact (AdjoinRoot.mk_surjective x).choose_spec

theorem low_mk (hf : f.degree < M.degree) : low M (AdjoinRoot.mk M f) = f := by
  have hM : M ≠ 0 := by
    rintro rfl
    simp at hf
  exact CMod.mk_inj (low_deg hM) hf mk_low

/-- The text of a residue: the coefficients of the representative of least degree, one for each power below the degree of the modulus. -/
noncomputable def pmText (sep : List Char) (dig : K → List Char) (M : K[X]) (x : AdjoinRoot M) : List Char :=
  List.intercalate sep ((List.range (max 1 M.natDegree)).reverse.map fun i => dig ((low M x).coeff i))

variable {α : Type} {O : CoefOps α} {rep : α → K → Prop} {ord : K → K → Prop}

theorem pm_lists {kv : K → ℕ} {q : ℕ} (H : CoefRef False O rep (fun x y => kv x < kv y)) (hd : Digits q kv) {r : Res (List (CMod α))} {S : AdjoinRoot M → Prop}
    (h : r.Ok fun r => Listing (CMod.Rep rep M) (fun a b => CMod.lt O a b = ok true) r S) :
    Cmd.Lists (CMod.Rep rep M) (fun x => polyKey q kv (low M x)) r S := by
  refine lists_of (lt := fun a b => CMod.lt O a b = ok true) (fun a b u v ha hb hlt => ?_) h
  obtain ⟨c, k1, k2⟩ := sat_false.1 (CMod.lt_sat H ha hb)
  rw [k1] at hlt
  have k3 := k2.1 (Res.ok.inj hlt)
  rw [← mk_low (x := u), ← mk_low (x := v), CMod.ordM_mk (low_deg ha.m_ne) (low_deg ha.m_ne)] at k3
  exact hd.key_lt_key k3

theorem pm_ops (H : CoefRef False O rep ord) {T : RTool (CPoly α) (CMod α)} {d : CMod α} (hO : T.O = pmOps O d) {m : CPoly α} {key : AdjoinRoot M → ℕ}
    {txt : AdjoinRoot M → List Char} (hsh : ∀ a x, CMod.Rep rep M a x → T.sh a = ok (txt x)) (hall : Cmd.Lists (CMod.Rep rep M) key (T.list m .all) fun _ => True)
    (hunits : Cmd.Lists (CMod.Rep rep M) key (T.list m .units) IsUnit) : ROps T m (CMod.Rep rep M) key txt where
  sh := hsh
  add h h' := by rw [hO]; exact sat_false.1 (CMod.add_sat H h h')
  sub h h' := by rw [hO]; exact sat_false.1 (CMod.sub_sat H h h')
  mul h h' := by rw [hO]; exact sat_false.1 (CMod.mul_sat H h h')
  div h h' hz := by rw [hO]; exact sat_false.1 (CMod.div_sat H h h' hz)
  div_throw h h' hu := by rw [hO]; exact (CMod.div_throw H h h' hu).resolve_right fun hf => hf.1
  all := hall
  units := hunits

/-- A modulus that is zero: reading a residue throws. -/
theorem pm_zero (H : CoefRef False O rep ord) {r m : CPoly α} (hr : PRep rep r f) (hm : PRep rep m 0) : CMod.mk' O r m = .throw := by
  have h := (CPoly.quot_and_rem_zero H hr hm).resolve_right fun hf => hf.1
  unfold CMod.mk' CPoly.mod
  rw [h]
  rfl

end

/-- A text without stretches between separators has separators only. -/
theorem stretch_nil {s : Char} {cs : List Char} (h : (cs.splitOnP (· == s)).filter (· ≠ []) = []) : ∀ c ∈ cs, c = s := by
  induction cs with
  | nil => simp
  | cons c cs ih =>
    rw [List.splitOnP_cons] at h
    by_cases hc : (c == s) = true
    · rw [if_pos hc] at h
      have h' : (cs.splitOnP (· == s)).filter (· ≠ []) = [] := by simpa using h
      intro d hd
      rcases List.mem_cons.1 hd with rfl | hd
      · simpa using hc
      · exact ih h' d hd
    · rw [if_neg hc] at h
      obtain ⟨a, l, e⟩ := List.exists_cons_of_ne_nil (List.splitOnP_ne_nil (· == s) cs)
      rw [e] at h
      simp at h

/-! ### A loop for the order -/

section
variable {p : ℕ} [Fact p.Prime] {M : (ZMod p)[X]} {a one : CMod IntMod} {x : AdjoinRoot M}

/-- The rounds until the order is found. -/
theorem fpOrd_prints (hp : p ≤ 46341) (ha : CMod.Rep (IntMod.Rep p) M a x) (h1 : CMod.Rep (IntMod.Rep p) M one 1) (hmax : orderOf x ≤ 2147483647)
    (n : ℕ) : ∀ (k i : ℕ) (b : CMod IntMod), CMod.Rep (IntMod.Rep p) M b (x ^ i) → 1 ≤ i → i + n = orderOf x → n < k →
      Prints (fpOrdLoop a one k i b) (showInt (orderOf x) ++ ['\n']) () := by
  have H := IntMod.cops_ref (Fact.out : p.Prime).two_le hp
  induction n with
  | zero =>
    intro k i b hb hi hn hk
    obtain ⟨k, rfl⟩ : ∃ j, k = j + 1 := ⟨k - 1, by omega⟩
    obtain ⟨e, k1, k2⟩ := sat_false.1 (CMod.eq_sat H hb h1)
    have he : e = true := k2.2 (by rw [show i = orderOf x by omega]; exact pow_orderOf_eq_one x)
    subst he
    rw [show (orderOf x : Int) = i by omega]
    exact (prints_lift k1).then (outLine_prints _)
  | succ n ih =>
    intro k i b hb hi hn hk
    obtain ⟨k, rfl⟩ : ∃ j, k = j + 1 := ⟨k - 1, by omega⟩
    obtain ⟨e, k1, k2⟩ := sat_false.1 (CMod.eq_sat H hb h1)
    have he : e = false := by
      by_contra hne
      exact pow_ne_one_of_lt_orderOf (by omega) (by omega : i < orderOf x) (k2.1 (by simpa using hne))
    subst he
    obtain ⟨c, k3, k4⟩ := sat_false.1 (CMod.mul_sat H hb ha)
    have k5 : iadd (i : Int) 1 = ok ((i + 1 : ℕ) : Int) := by
      unfold iadd
      rw [chk_ok (by unfold InInt; omega)]
      push_cast
      rfl
    refine (prints_lift k1).then ?_
    exact (prints_lift k3).then ((prints_lift k5).then (ih k (i + 1) c (by rw [pow_succ]; exact k4) (by omega) (by omega) (by omega)))

/-- An order that is no `int` overflows the counter. -/
theorem fpOrd_ub (hp : p ≤ 46341) (ha : CMod.Rep (IntMod.Rep p) M a x) (h1 : CMod.Rep (IntMod.Rep p) M one 1) (hmax : 2147483647 < orderOf x)
    (n : ℕ) : ∀ (k i : ℕ) (b : CMod IntMod), CMod.Rep (IntMod.Rep p) M b (x ^ i) → 1 ≤ i → i + n = 2147483647 → n < k →
      IsUb (fpOrdLoop a one k i b) := by
  have H := IntMod.cops_ref (Fact.out : p.Prime).two_le hp
  have step : ∀ (k i : ℕ) (b : CMod IntMod), CMod.Rep (IntMod.Rep p) M b (x ^ i) → 1 ≤ i → i ≤ 2147483647 → ∃ c, CMod.Rep (IntMod.Rep p) M c (x ^ (i + 1)) ∧
      fpOrdLoop a one (k + 1) i b = (lift (iadd i 1) >>= fun o => fpOrdLoop a one k o c) := by
    intro k i b hb hi hi'
    obtain ⟨e, k1, k2⟩ := sat_false.1 (CMod.eq_sat H hb h1)
    have he : e = false := by
      by_contra hne
      exact pow_ne_one_of_lt_orderOf (by omega) (by omega : i < orderOf x) (k2.1 (by simpa using hne))
    subst he
    obtain ⟨c, k3, k4⟩ := sat_false.1 (CMod.mul_sat H hb ha)
    refine ⟨c, by rw [pow_succ]; exact k4, ?_⟩
    exact (skip (prints_lift k1) _).trans (skip (prints_lift k3) _)
  induction n with
  | zero =>
    intro k i b hb hi hn hk
    obtain ⟨k, rfl⟩ : ∃ j, k = j + 1 := ⟨k - 1, by omega⟩
    obtain ⟨c, -, e⟩ := step k i b hb hi (by omega)
    rw [e]
    refine (ub_lift ?_).bind
    unfold iadd
    exact chk_ub (by unfold InInt; omega)
  | succ n ih =>
    intro k i b hb hi hn hk
    obtain ⟨k, rfl⟩ : ∃ j, k = j + 1 := ⟨k - 1, by omega⟩
    obtain ⟨c, hc, e⟩ := step k i b hb hi (by omega)
    have k5 : iadd (i : Int) 1 = ok ((i + 1 : ℕ) : Int) := by
      unfold iadd
      rw [chk_ok (by unfold InInt; omega)]
      push_cast
      rfl
    rw [e, skip (prints_lift k5)]
    exact ih k (i + 1) c hc (by omega) (by omega) (by omega)

end

/-! ### Powers that do not come back -/

/-- The computation does not end, unless a counter overflows. -/
def Hangs {α : Type} (r : Res α) : Prop := r = .timeout ∨ r = .ub

theorem Hangs.bind {α β : Type} {r : Res α} {f : α → Res β} (h : Hangs r) : Hangs (r >>= f) := by
  rcases h with rfl | rfl
  · exact .inl rfl
  · exact .inr rfl

theorem hangs_lift {α β : Type} {r : Res α} (h : Hangs r) {f : α → Cmd β} : Hangs (lift r >>= f).run := by
  rcases h with rfl | rfl
  · exact .inl rfl
  · exact .inr rfl

section
variable {K α : Type} [Field K] {M : K[X]} {O : CoefOps α} {rep : α → K → Prop} {ord : K → K → Prop}

theorem frob_hangs (H : CoefRef False O rep ord) {a : CMod α} {x : AdjoinRoot M} (ha : CMod.Rep rep M a x) {q : ℕ} (hq : 1 ≤ q) (hqi : (q : Int) ≤ INT_MAX)
    (hx : ∀ i, 1 ≤ i → x ^ q ^ i ≠ x) (k : ℕ) : Hangs (LinAlg.frobenius_length O q k a) := by
  have key : ∀ (k i : ℕ) (b : CMod α), CMod.Rep rep M b (x ^ q ^ i) →
      Hangs (LinAlg.frobLoop (fun x => CMod.exp O x q) (fun x => do let e ← CMod.eq O x a; ok !e) k i b) := by
    intro k
    induction k with
    | zero => exact fun i b _ => .inl rfl
    | succ k ih =>
      intro i b hb
      unfold LinAlg.frobLoop
      by_cases h : InInt ((i : Int) + 1)
      · unfold iadd
        rw [chk_ok h, ok_bind]
        obtain ⟨c, e1, e2⟩ := sat_false.1 (CMod.exp_nonneg_sat H hb hqi (Or.inl (by omega)))
        rw [← pow_mul, ← pow_succ] at e2
        obtain ⟨e, e3, e4⟩ := sat_false.1 (CMod.eq_sat H e2 ha)
        have he : e = false := by
          by_contra hne
          exact hx (i + 1) (by omega) (e4.1 (by simpa using hne))
        subst he
        rw [e1, ok_bind, e3, ok_bind]
        exact ih (i + 1) c e2
      · unfold iadd
        rw [chk_ub h]
        exact .inr rfl
  exact key k 0 a (by simpa using ha)

theorem pol_hangs (H : CoefRef False O rep ord) {a : CMod α} {x : AdjoinRoot M} (ha : CMod.Rep rep M a x) {q : ℕ} (hq : 1 ≤ q) (hqi : (q : Int) ≤ INT_MAX)
    (hx : ∀ i, 1 ≤ i → x ^ q ^ i ≠ x) (d zero one : α) (k : ℕ) : Hangs (LinAlg.minimal_polynomial O d q zero one k a) ∧
      Hangs (LinAlg.characteristic_polynomial O d q zero one k a) := by
  have h1 : Hangs (LinAlg.minimal_polynomial O d q zero one k a) := by
    obtain ⟨b, e1, -⟩ := sat_false.1 (CMod.psub_sat (v := 1) H ha (by decide))
    unfold LinAlg.minimal_polynomial
    rw [e1, ok_bind]
    exact (frob_hangs H ha hq hqi hx k).bind
  exact ⟨h1, h1.bind⟩

/-- A nilpotent residue is no power of itself. -/
theorem nilpotent_pow {x : AdjoinRoot M} (hn : IsNilpotent x) (h0 : x ≠ 0) {q : ℕ} (hq : 2 ≤ q) (i : ℕ) (hi : 1 ≤ i) : x ^ q ^ i ≠ x := by
  intro h
  have hp : ∀ n : ℕ, x ^ (q ^ i) ^ n = x := by
    intro n
    induction n with
    | zero => simp
    | succ n ih => rw [pow_succ, pow_mul, ih, h]
  obtain ⟨n, hn⟩ := hn
  have h2 : 2 ≤ q ^ i := hq.trans (Nat.le_self_pow (by omega) q)
  have h3 : n ≤ (q ^ i) ^ n := (Nat.lt_pow_self (by omega)).le
  refine h0 ?_
  rw [← hp n, ← Nat.sub_add_cancel h3, pow_add, hn, mul_zero]

end

/-! ### A computation that prints as it goes -/

/-- `c` computes what `r` computes, apart from what it prints. -/
def Sim {α : Type} (P : α → Prop) (c : Cmd α) (r : Res α) : Prop :=
  (∃ v t, r = ok v ∧ P v ∧ Prints c t v) ∨ (∃ t, r = .throw ∧ ThrowsC c t) ∨ r = .timeout

section
variable {α β : Type} {P : α → Prop} {Q : β → Prop}

theorem sim_lift {r : Res α} (h : r.Ok P) : Sim P (lift r) r := by
  obtain ⟨v, h1, h2⟩ := h
  exact .inl ⟨v, [], h1, h2, prints_lift h1⟩

theorem Sim.bind {c : Cmd α} {r : Res α} {f : α → Cmd β} {g : α → Res β} (h : Sim P c r) (h' : ∀ v, P v → Sim Q (f v) (g v)) :
    Sim Q (c >>= f) (r >>= g) := by
  rcases h with ⟨v, t, rfl, hv, hp⟩ | ⟨t, rfl, ht⟩ | rfl
  · rw [ok_bind]
    rcases h' v hv with ⟨w, s, e, hw, hq⟩ | ⟨s, e, hs⟩ | e
    · exact .inl ⟨w, _, e, hw, hp.bind hq⟩
    · exact .inr (.inl ⟨_, e, hp.bind_throws hs⟩)
    · exact .inr (.inr e)
  · exact .inr (.inl ⟨t, rfl, ht.bind⟩)
  · exact .inr (.inr rfl)

theorem Sim.after {c : Cmd Unit} {t : List Char} (hc : Prints c t ()) {d : Cmd β} {r : Res β} (h : Sim Q d r) : Sim Q (c >>= fun _ => d) r := by
  rcases h with ⟨w, s, e, hw, hq⟩ | ⟨s, e, hs⟩ | e
  · exact .inl ⟨w, _, e, hw, hc.bind hq⟩
  · exact .inr (.inl ⟨_, e, hc.bind_throws hs⟩)
  · exact .inr (.inr e)

theorem Sim.mono {c : Cmd α} {r : Res α} {P' : α → Prop} (h : Sim P c r) (h' : ∀ v, P v → P' v) : Sim P' c r := by
  rcases h with ⟨v, t, e, hv, hp⟩ | h
  · exact .inl ⟨v, t, e, h' v hv, hp⟩
  · exact .inr h

theorem sim_throw : Sim P (lift (.throw : Res α)) .throw := .inr (.inl ⟨[], rfl, throws_lift rfl⟩)

theorem sim_pure {v : α} (h : P v) : Sim P (pure v) (ok v) := .inl ⟨v, [], rfl, h, prints_pure v⟩

end

section
variable {m : (ZMod 2)[X]} [hm : Fact (Irreducible m)] {M : (AdjoinRoot m)[X]} {txt : AdjoinRoot M → List Char}
  (hsh : ∀ a x, F2nM m M a x → PText.f2nModShow a = ok (txt x))
include hsh

theorem dbg_prints (t : List Char) {a : CMod F2Mod} {x : AdjoinRoot M} (ha : F2nM m M a x) :
    Prints (dbg t PText.f2nModShow a) (t ++ (txt x ++ ['\n'])) () := (prints_out t).bind (putLine_prints (hsh a x ha))

theorem dbgPair_prints (t : List Char) (i j : ℕ) {a b : CMod F2Mod} {x y : AdjoinRoot M} (ha : F2nM m M a x) (hb : F2nM m M b y) :
    ∃ s, Prints (dbgPair t i j a b) s () :=
  ⟨_, (prints_out _).bind ((put_prints (hsh a x ha)).bind ((prints_out _).bind (putLine_prints (hsh b y hb))))⟩

omit hsh in
/-- Every entry denotes a residue. -/
def AllRep (m : (ZMod 2)[X]) [Fact (Irreducible m)] (M : (AdjoinRoot m)[X]) (l : List (CMod F2Mod × ℕ)) : Prop := ∀ q ∈ l, ∃ x, F2nM m M q.1 x

theorem dbgTable_sim (name eq : List Char) {z : CMod F2Mod} {w : AdjoinRoot M} (hz : F2nM m M z w) (n : ℕ) :
    ∀ (i : ℕ) (l : List (CMod F2Mod × ℕ)), 1 ≤ i → l.length = i → AllRep m M l →
      Sim (AllRep m M) (dbgTable name eq z n i l) (loopUp (Units.powStep F2nU.uops z) n i l) := by
  have R := F2Mod.cops_ref (m := m) hm.out.ne_zero
  induction n with
  | zero => exact fun i l hi hl ha => sim_pure ha
  | succ n ih =>
    intro i l hi hl ha
    have hlt : i - 1 < l.length := by omega
    obtain ⟨x, hx⟩ := ha _ (List.getElem_mem hlt)
    obtain ⟨y, e1, e2⟩ := sat_false.1 (CMod.mul_sat R hx hz)
    have e3 : Units.powStep F2nU.uops z i l = ok (l ++ [(y, i)]) := by
      unfold Units.powStep
      rw [rd_ok hlt, ok_bind]
      show (CMod.mul F2Mod.cops l[i - 1].1 z >>= fun y => ok (l ++ [(y, i)])) = _
      rw [e1, ok_bind]
    have ha' : AllRep m M (l ++ [(y, i)]) := by
      intro q hq
      rcases List.mem_append.1 hq with hq | hq
      · exact ha q hq
      · obtain rfl : q = (y, i) := by simpa using hq
        exact ⟨_, e2⟩
    have e4 : rd (l ++ [(y, i)]) i = ok (y, i) := by
      rw [rd_ok (by simp; omega)]
      simp [← hl]
    show Sim _ (lift (Units.powStep F2nU.uops z i l) >>= fun l => (do
      let p ← lift (rd l i)
      dbgRow name i eq p.1
      dbgTable name eq z n (i + 1) l)) (Units.powStep F2nU.uops z i l >>= fun s => loopUp (Units.powStep F2nU.uops z) n (i + 1) s)
    rw [skip (prints_lift e3), skip (prints_lift e4), e3, ok_bind]
    exact Sim.after (dbg_prints hsh _ e2) (ih (i + 1) _ (by omega) (by simp [hl]) ha')

theorem dbgSorted_prints (j : ℕ) {l l' : List (CMod F2Mod × ℕ)} (h : AllRep m M l) (h' : AllRep m M l') : ∃ t, Prints (dbgSorted j l l') t () := by
  induction l generalizing j l' with
  | nil => exact ⟨[], by cases l' <;> exact prints_pure ()⟩
  | cons q l ih =>
    cases l' with
    | nil => exact ⟨[], prints_pure ()⟩
    | cons q' l' =>
      obtain ⟨x, hx⟩ := h q (by simp)
      obtain ⟨y, hy⟩ := h' q' (by simp)
      obtain ⟨s, hs⟩ := dbgPair_prints hsh "-- agni[".toList j j hx hy
      obtain ⟨t, ht⟩ := ih (j + 1) (l' := l') (fun p hp => h p (by simp [hp])) (fun p hp => h' p (by simp [hp]))
      exact ⟨_, hs.bind ht⟩

theorem dbgScan_sim (k : ℕ) : ∀ (i j : ℕ) (l l' : List (CMod F2Mod × ℕ)), AllRep m M l → AllRep m M l' →
    Sim (fun _ => True) (dbgScan k i j l l') (Units.scan F2nU.uops k l l') := by
  have R := F2Mod.cops_ref (m := m) hm.out.ne_zero
  induction k with
  | zero => exact fun i j l l' _ _ => .inr (.inr rfl)
  | succ k ih =>
    intro i j l l' h h'
    cases l with
    | nil => exact sim_pure trivial
    | cons q l =>
      cases l' with
      | nil => exact sim_pure trivial
      | cons q' l' =>
        obtain ⟨x, hx⟩ := h q (by simp)
        obtain ⟨y, hy⟩ := h' q' (by simp)
        obtain ⟨s, hs⟩ := dbgPair_prints hsh "agni[".toList i j hx hy
        refine Sim.after hs ((sim_lift ((sat_false.1 (CMod.eq_sat R hx hy)).mono fun _ _ => trivial)).bind fun e _ => ?_)
        cases e with
        | true => exact Sim.after (prints_out _) (sim_pure trivial)
        | false =>
          refine (sim_lift ((sat_false.1 (CMod.lt_sat R hx hy)).mono fun _ _ => trivial)).bind fun c _ => ?_
          cases c with
          | true => exact ih (i + 1) j l (q' :: l') (fun p hp => h p (by simp [hp])) h'
          | false => exact ih i (j + 1) (q :: l) l' h (fun p hp => h' p (by simp [hp]))

theorem dbgBsgs_sim {qs : List (CMod F2Mod × ℕ) → List (CMod F2Mod × ℕ)} (hqs : ∀ l, (qs l).Perm l) {g a : CMod F2Mod} {w x : AdjoinRoot M}
    (hg : F2nM m M g w) (ha : F2nM m M a x) {k : ℕ} (hk : 1 ≤ k) (hk' : (k : Int) ≤ INT_MAX) :
    Sim (fun _ => True) (dbgBsgs qs g a k) (Units.bsgs F2nU.uops qs g a k) := by
  have R := F2Mod.cops_ref (m := m) hm.out.ne_zero
  have hperm : ∀ l, AllRep m M l → AllRep m M (qs l) := fun l h q hq => h q ((hqs l).mem_iff.1 hq)
  unfold dbgBsgs Units.bsgs
  rw [if_neg (by omega), if_neg (by omega)]
  refine (sim_lift (sat_false.1 (CMod.recip_sat R hg))).bind fun o ho => ?_
  cases o with
  | none => exact sim_throw
  | some gi =>
    obtain ⟨y, hy, hy1⟩ := ho
    refine Sim.after (dbg_prints hsh _ hy) ((sim_lift (sat_false.1 (CMod.exp_nonneg_sat R hg hk' (Or.inl (by omega))))).bind fun gk hgk => ?_)
    refine Sim.after (dbg_prints hsh _ hgk) ((sim_lift (sat_false.1 (CMod.div_sat R hg hg hy1))).bind fun one h1 => ?_)
    refine Sim.after (dbg_prints hsh _ ha) ((dbgTable_sim hsh _ _ hy (k - 1) 1 [(a, 0)] le_rfl rfl fun q hq => ⟨x, by
      obtain rfl : q = (a, 0) := by simpa using hq
      exact ha⟩).bind fun agni h2 => ?_)
    refine Sim.after (dbg_prints hsh _ h1) ((dbgTable_sim hsh _ _ hgk (k - 1) 1 [(one, 0)] le_rfl rfl fun q hq => ⟨w * y, by
      obtain rfl : q = (one, 0) := by simpa using hq
      exact h1⟩).bind fun gkj h3 => ?_)
    obtain ⟨s, hs⟩ := dbgSorted_prints hsh 0 (hperm _ h2) (hperm _ h3)
    refine Sim.after hs ((dbgScan_sim hsh (2 * k + 1) 0 0 _ _ (hperm _ h2) (hperm _ h3)).bind fun r _ => ?_)
    cases r with
    | none => exact sim_throw
    | some r =>
      by_cases hr : Units.toInt32 (r.1 + r.2 * k) = -1
      · simp only [hr, if_true]
        exact sim_throw
      · simp only [hr, if_false]
        exact sim_pure trivial

omit hsh in
/-- What `f2n_polymod_log` prints first. -/
def logDbg (txt : AdjoinRoot M → List Char) (mt : List Char) (w x : AdjoinRoot M) : List Char :=
  "\ng = ".toList ++ txt w ++ "\na = ".toList ++ txt x ++ "\nm = ".toList ++ mt ++ "\nn = ".toList

/-- `f2n_polymod_log` computes what F2nU.log does, and prints. -/
theorem f2nLog_prints {mt : List Char} {qs : List (CMod F2Mod × ℕ) → List (CMod F2Mod × ℕ)} (hqs : ∀ l, (qs l).Perm l) {g a : CMod F2Mod} {w x : AdjoinRoot M}
    (hg : F2nM m M g w) (ha : F2nM m M a x) (hmt : PText.f2nShow g.modulus = ok mt) (hd : M.natDegree ≤ 30) :
    (∀ v, F2nU.log qs g a = ok v → ∃ t, Prints (f2nLog qs g a) (logDbg txt mt w x ++ t) v) ∧
    (F2nU.log qs g a = .throw → ∃ t, ThrowsC (f2nLog qs g a) (logDbg txt mt w x ++ t)) := by
  have hdeg : g.modulus.degree = M.natDegree := hg.hm.1.symm
  have hn : ishl 1 g.modulus.degree = ok ((2 ^ M.natDegree : ℕ) : Int) := by
    rw [hdeg, F2P.ishl_one (by omega)]
    push_cast
    rfl
  obtain ⟨k, k1, k2, -, k3, -⟩ := Units.sqrt_ceil_ok' (n := 2 ^ M.natDegree) Nat.one_le_two_pow (Nat.pow_le_pow_right (by norm_num) hd)
  have hkk : (k : Int) ≤ INT_MAX := by
    have : k ≤ k * k := Nat.le_mul_self k
    unfold INT_MAX
    omega
  have hs := dbgBsgs_sim hsh hqs hg ha k2 hkk
  have e : F2nU.log qs g a = Units.bsgs F2nU.uops qs g a k := by
    unfold F2nU.log
    rw [hn, ok_bind, k1, ok_bind]
    rfl
  have e' : f2nLog qs g a = (do
      out ['\n']
      dbg "g = ".toList PText.f2nModShow g
      dbg "a = ".toList PText.f2nModShow a
      dbg "m = ".toList PText.f2nShow g.modulus
      outLine ("n = ".toList ++ showInt ((2 ^ M.natDegree : ℕ) : Int))
      outLine ("k = ".toList ++ showInt (k : Int))
      dbgBsgs qs g a k) := by
    unfold f2nLog
    rw [hn]
    simp only [skip (prints_lift rfl), k1]
    rfl
  have head : logDbg txt mt w x = ['\n'] ++ (("g = ".toList ++ (txt w ++ ['\n'])) ++ (("a = ".toList ++ (txt x ++ ['\n'])) ++
      (("m = ".toList ++ (mt ++ ['\n'])) ++ "n = ".toList))) := by
    unfold logDbg
    rw [show "\ng = ".toList = ['\n'] ++ "g = ".toList from rfl, show "\na = ".toList = ['\n'] ++ "a = ".toList from rfl,
      show "\nm = ".toList = ['\n'] ++ "m = ".toList from rfl, show "\nn = ".toList = ['\n'] ++ "n = ".toList from rfl]
    simp only [List.append_assoc]
  have pre : ∀ {t : List Char} {v : Int}, Prints (dbgBsgs qs g a k) t v → ∃ t, Prints (f2nLog qs g a) (logDbg txt mt w x ++ t) v := by
    intro t v h
    refine ⟨showInt ((2 ^ M.natDegree : ℕ) : Int) ++ ['\n'] ++ (("k = ".toList ++ showInt (k : Int)) ++ ['\n'] ++ t), ?_⟩
    rw [e', head]
    refine ((prints_out _).bind ((dbg_prints hsh _ hg).bind ((dbg_prints hsh _ ha).bind (((prints_out _).bind (putLine_prints hmt)).bind
      ((outLine_prints _).bind ((outLine_prints _).bind h)))))).of_eq ?_
    simp only [List.append_assoc]
  have preT : ∀ {t : List Char}, ThrowsC (dbgBsgs qs g a k) t → ∃ t, ThrowsC (f2nLog qs g a) (logDbg txt mt w x ++ t) := by
    intro t h
    refine ⟨showInt ((2 ^ M.natDegree : ℕ) : Int) ++ ['\n'] ++ (("k = ".toList ++ showInt (k : Int)) ++ ['\n'] ++ t), ?_⟩
    rw [e', head]
    refine ((prints_out _).bind_throws ((dbg_prints hsh _ hg).bind_throws ((dbg_prints hsh _ ha).bind_throws (((prints_out _).bind (putLine_prints hmt)).bind_throws
      ((outLine_prints _).bind_throws ((outLine_prints _).bind_throws h)))))).of_eq ?_
    simp only [List.append_assoc]
  rw [e]
  rcases hs with ⟨v, t, h1, -, h2⟩ | ⟨t, h1, h2⟩ | h1
  · rw [h1]
    refine ⟨fun u hu => ?_, nofun⟩
    cases hu
    exact pre h2
  · rw [h1]
    exact ⟨(fun u hu => nomatch hu), fun _ => preT h2⟩
  · rw [h1]
    exact ⟨(fun u hu => nomatch hu), nofun⟩

end
end Spffl.Cmd
