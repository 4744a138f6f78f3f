import Verif.Proof.CmdRes
import Verif.Props.CmdF2n
import Verif.Props.Convert
import Verif.Props.MinPoly

/-!
# C105: the commands for residues modulo a polynomial over F2
-/

namespace Spffl.Props.Cmd105
open Res Scan Polynomial F2P Spffl.Cmd Lists PText93 Cmd101 Cmd103

variable {m : (ZMod 2)[X]} {mm : F2P} {x : List Char} {tm : TrimMask} {qs : List (F2Mod × ℕ) → List (F2Mod × ℕ)}

theorem mod_arg (hx : IsHex x m) : ∃ mm, Prints (f2Arg x) [] mm ∧ Canon mm ∧ toPoly mm = m := by
  obtain ⟨a, h1, h2⟩ := read_hex hx
  exact ⟨a, readArg_prints h1, h2.1, h2.2⟩

theorem res_text (hpos : 0 < m.natDegree) {a : F2Mod} {c : AdjoinRoot m} (h : F2Mod.Rep m a c) : PText.f2ModShow a = ok (padText c) := by
  unfold PText.f2ModShow
  rw [find_degree_ok, ok_bind, h.hm, if_neg (by omega)]
  unfold dprint padText
  rw [find_degree_ok, ok_bind, print_ok h.cr.ne_nil, ok_bind, F2nP.kv_rep h, hexOf_nval_length,
    show (m.natDegree - 1 + 4) / 4 = (m.natDegree + 3) / 4 by omega,
    show ((toPoly a.residue).natDegree + 4) / 4 = (toPoly a.residue).natDegree / 4 + 1 by omega]

theorem io (hc : Canon mm) (ht : toPoly mm = m) (hpos : 0 < m.natDegree) :
    RIO (f2RTool tm qs) mm (F2Mod.Rep m) (F2Reads m) padText where
  read h := sat_false.1 ((f2n_spec hc ht (ne_zero_of_natDegree_gt hpos)).yes _ _ h) |>.elim fun _ ⟨e, b, hb, hr⟩ => ⟨b, hb ▸ e, hr⟩
  bad h := (f2n_spec hc ht (ne_zero_of_natDegree_gt hpos)).no _ h
  sh _ _ h := res_text hpos h

theorem lists (hm0 : m ≠ 0) {r : Res (List F2Mod)} {S : AdjoinRoot m → Prop}
    (h : r.Ok fun r => Listing (F2Mod.Rep m) (fun a b => F2Mod.lt a b = ok true) r S) : Cmd.Lists (F2Mod.Rep m) (F2nP.kv m) r S := by
  refine lists_of (lt := fun a b => F2Mod.lt a b = ok true) (fun a b u v ha hb hlt => ?_) h
  obtain ⟨c, h1, h2⟩ := (F2U.uref hm0).lt ha hb
  rw [show F2Mod.lt a b = ok c from h1] at hlt
  exact h2.1 (by injection hlt)

variable (M : ℕ → BitVec 64)

theorem card_lt (hm0 : m ≠ 0) (hd : m.natDegree ≤ 30) : Nat.card (AdjoinRoot m)ˣ < 2147483647 :=
  lt_of_le_of_lt ((F2U.card_units_le hm0).trans (Nat.pow_le_pow_right (by norm_num) hd)) (by norm_num)

/-- C105, f2_pm_list: all residues, the units, the non-units; with a residue its multiples and the residues relatively prime to it.  One per line,
in ascending order of their binary numbers. -/
theorem C105_list (hpos : 0 < m.natDegree) (hd : m.natDegree ≤ 30) (hx : IsHex x m) :
    (∃ w, Ascend (F2nP.kv m) padText (fun _ => True) w ∧ Prints (f2_pm_list (msk M) qs ["-a".toList, x]) w ()) ∧
    (∃ w, Ascend (F2nP.kv m) padText IsUnit w ∧ Prints (f2_pm_list (msk M) qs ["-u".toList, x]) w ()) ∧
    (∃ w, Ascend (F2nP.kv m) padText (fun y => ¬ IsUnit y) w ∧ Prints (f2_pm_list (msk M) qs ["-nu".toList, x]) w ()) ∧
    ∀ g, (∀ c : AdjoinRoot m, F2Reads m g c →
        (∃ w, Ascend (F2nP.kv m) padText (fun y => c ∣ y) w ∧ Prints (f2_pm_list (msk M) qs ["-m".toList, g, x]) w ()) ∧
        ∃ w, Ascend (F2nP.kv m) padText (fun y => IsCoprime y c) w ∧ Prints (f2_pm_list (msk M) qs ["-rp".toList, g, x]) w ()) ∧
      ((∀ c : AdjoinRoot m, ¬ F2Reads m g c) → Exits (f2_pm_list (msk M) qs ["-m".toList, g, x]) [] ∧
        Exits (f2_pm_list (msk M) qs ["-rp".toList, g, x]) []) := by
  obtain ⟨mm, hp, hc, ht⟩ := mod_arg hx
  have hm0 : m ≠ 0 := ne_zero_of_natDegree_gt hpos
  have hio := io (tm := msk M) (qs := qs) hc ht hpos
  refine ⟨list_prints hio hp flag_a (lists hm0 (C70_f2_all_partial (tm := msk M) hc ht hm0 hd)),
    list_prints hio hp flag_u (lists hm0 (sat_false.1 (C70_f2_units_partial (some_mask M) hc ht hm0 (by unfold INT_MAX; omega) (card_lt hm0 hd)))),
    list_prints hio hp flag_nu (lists hm0 (sat_false.1 (C70_f2_non_units_partial (some_mask M) hc ht hpos hd))),
    fun g => ⟨fun c hc => ⟨?_, ?_⟩, fun hno => ⟨?_, ?_⟩⟩⟩
  · exact glist_prints hio hp flag_m (S := fun c y => c ∣ y) hc fun a ha => lists hm0 (C70_f2_multiples_partial ha hd)
  · exact glist_prints hio hp flag_rp (S := fun c y => IsCoprime y c) hc fun a ha => lists hm0 (C70_f2_rel_prime_partial ha hd)
  · exact glist_exits hio hp flag_m hno
  · exact glist_exits hio hp flag_rp hno

/-- C105: a modulus of degree 31 ends the listing of all residues with an uncaught exception; for a higher degree it is undefined. -/
theorem C105_violated_list_31 (hx : IsHex x m) : (m.natDegree = 31 → ThrowsC (f2_pm_list tm qs ["-a".toList, x]) []) ∧
    (32 ≤ m.natDegree → IsUb (f2_pm_list tm qs ["-a".toList, x])) := by
  obtain ⟨mm, hp, hc, rfl⟩ := mod_arg hx
  refine ⟨fun h => ?_, fun h => ?_⟩
  · exact flag_a.then_throws (hp.then_throws (throws_lift (by
      show f2_polymod_list tm mm .all = _
      rw [C70_violated_all_31 (by omega), if_pos h])).bind)
  · show IsUb (listFlag _ >>= _)
    rw [skip flag_a, skip hp]
    exact (ub_lift (by
      show f2_polymod_list tm mm .all = _
      rw [C70_violated_all_31 (by omega), if_neg (by omega)])).bind

example : (f2_pm_list (msk 5) (isort F2Mod.lt) ["-u".toList, "12".toList]).run = ok ("1\nb\nd\n".toList, .val ()) ∧
    (f2_pm_list (msk 5) (isort F2Mod.lt) ["-m".toList, "3".toList, "9".toList]).run = ok ("0\n3\n5\n6\n".toList, .val ()) ∧
    (f2_pm_list (msk 5) (isort F2Mod.lt) ["-rp".toList, "3".toList, "9".toList]).run = ok ("1\n2\n4\n7\n".toList, .val ()) := by
  refine ⟨?_, ?_, ?_⟩ <;> decide +kernel

/-- C105: other selections, other numbers of arguments and moduli that are not hexadecimal numbers: status 1 and nothing printed. -/
theorem C105_usage (k : ℕ) (vs : List F2Mod → List F2Mod) (x g : List Char) :
    (∀ f, f ≠ "-a".toList ∧ f ≠ "-u".toList ∧ f ≠ "-nu".toList → Exits (f2_pm_list tm qs [f, x]) []) ∧
    (∀ f, f ≠ "-m".toList ∧ f ≠ "-rp".toList → Exits (f2_pm_list tm qs [f, g, x]) []) ∧
    (∀ args, args.length ≠ 2 → args.length ≠ 3 → Exits (f2_pm_list tm qs args) []) ∧
    (∀ args, args.length ≠ 2 → Exits (f2_pm_tbl tm qs args) []) ∧
    (∀ args, args.length < 2 → Exits (f2_pm_ord tm qs args) [] ∧ Exits (f2_pm_ch_pol tm k args) [] ∧ Exits (f2_pm_min_pol tm k args) []) ∧
    Exits (f2_pm_find_gen tm qs []) [] ∧
    (∀ args, args.length < 3 → Exits (f2_pm_log tm qs args) [] ∧ Exits (f2_pm_convert tm qs vs args) []) := by
  refine ⟨fun f => list_flag, fun f => glist_flag, fun args h2 h3 => ?_, fun args h => ?_, fun args h => ?_, exits_exit1, fun args h => ?_⟩
  · match args with
    | [] | [_] | _ :: _ :: _ :: _ :: _ => exact exits_exit1
    | [_, _] => exact absurd rfl h2
    | [_, _, _] => exact absurd rfl h3
  · match args with
    | [] | [_] | _ :: _ :: _ :: _ => exact exits_exit1
    | [_, _] => exact absurd rfl h
  · match args with
    | [] | [_] => exact ⟨exits_exit1, exits_exit1, exits_exit1⟩
    | _ :: _ :: _ => simp at h
  · match args with
    | [] | [_] | [_, _] => exact ⟨exits_exit1, exits_exit1⟩
    | _ :: _ :: _ :: _ => simp at h; omega

theorem C105_usage_modulus (k : ℕ) (vs : List F2Mod → List F2Mod) (hx : ∀ f, ¬ IsHex x f) (y z : List Char) (r : List (List Char)) :
    Exits (f2_pm_list tm qs [y, x]) [] ∧ Exits (f2_pm_list tm qs [y, z, x]) [] ∧
    Exits (f2_pm_tbl tm qs [x, y]) [] ∧ Exits (f2_pm_ord tm qs (x :: y :: r)) [] ∧ Exits (f2_pm_log tm qs (x :: y :: z :: r)) [] ∧
    Exits (f2_pm_ch_pol tm k (x :: y :: r)) [] ∧ Exits (f2_pm_min_pol tm k (x :: y :: r)) [] ∧
    Exits (f2_pm_convert tm qs vs (x :: y :: z :: r)) [] ∧ ∀ f, IsHex y f → Exits (f2_pm_convert tm qs vs (y :: x :: z :: r)) [] := by
  have h : Exits (f2Arg x) [] := readArg_no hx
  refine ⟨?_, ?_, h.bind, h.bind, h.bind, h.bind, h.bind, h.bind, fun f hf => ?_⟩
  · show Exits (listFlag y >>= _) []
    unfold listFlag
    split_ifs
    · exact (prints_pure _).then_exits h.bind
    · exact (prints_pure _).then_exits h.bind
    · exact (prints_pure _).then_exits h.bind
    · exact exits_exit1.bind
  · show Exits (glistFlag y >>= _) []
    unfold glistFlag
    split_ifs
    · exact (prints_pure _).then_exits h.bind
    · exact (prints_pure _).then_exits h.bind
    · exact exits_exit1.bind
  · obtain ⟨a, h1, -, -⟩ := mod_arg hf
    exact h1.then_exits h.bind

/-! ### Tables -/

theorem rref (hc : Canon mm) (ht : toPoly mm = m) (hpos : 0 < m.natDegree) (hd : m.natDegree ≤ 15) (hqs : IsQsort F2Mod.lt qs) :
    RRef (f2RTool (msk M) qs) mm (F2Mod.Rep m) (F2nP.kv m) (F2Reads m) padText (2 ^ 31) where
  io := io hc ht hpos
  add h h' := sat_false.1 ((F2Mod.cops_ref (ne_zero_of_natDegree_gt hpos)).add h h')
  sub h h' := sat_false.1 ((F2Mod.cops_ref (ne_zero_of_natDegree_gt hpos)).sub h h')
  mul h h' := sat_false.1 ((F2Mod.cops_ref (ne_zero_of_natDegree_gt hpos)).mul h h')
  div h h' hz := sat_false.1 ((F2Mod.cops_ref (ne_zero_of_natDegree_gt hpos)).div h h' hz)
  div_throw h h' hu := ((F2Mod.cops_ref (ne_zero_of_natDegree_gt hpos)).div_throw h h' hu).resolve_right fun hf => hf.1
  all := lists (ne_zero_of_natDegree_gt hpos) (C70_f2_all_partial (tm := msk M) hc ht (ne_zero_of_natDegree_gt hpos) (by omega))
  units := lists (ne_zero_of_natDegree_gt hpos) (sat_false.1 (C70_f2_units_partial (some_mask M) hc ht (ne_zero_of_natDegree_gt hpos)
    (by unfold INT_MAX; omega) (card_lt (ne_zero_of_natDegree_gt hpos) (by omega))))
  order h hu := (C59_f2_small M h hd).1 hu
  order_throw h hu := (C59_f2_small M h hd).2 hu
  log := fun hg ha => C61_f2_log_partial hqs hg ha (by omega)

section
variable (hpos : 0 < m.natDegree) (hd : m.natDegree ≤ 15) (hqs : IsQsort F2Mod.lt qs) (hx : IsHex x m)
include hpos hd hqs hx

/-- C105, f2_pm_tbl: the tables of addition, subtraction and multiplication of all residues, and of multiplication and division of the units, with
the residues in ascending order in rows and columns. -/
theorem C105_tbl : (∃ L : List (AdjoinRoot m), Elems (F2nP.kv m) (fun _ => True) L ∧
      Prints (f2_pm_tbl (msk M) qs [x, ['+']]) (tblText padText (· + ·) L) () ∧ Prints (f2_pm_tbl (msk M) qs [x, ['-']]) (tblText padText (· - ·) L) () ∧
      Prints (f2_pm_tbl (msk M) qs [x, ['*']]) (tblText padText (· * ·) L) () ∧ Prints (f2_pm_tbl (msk M) qs [x, ['.']]) (tblText padText (· * ·) L) ()) ∧
    ∃ L : List (AdjoinRoot m), Elems (F2nP.kv m) IsUnit L ∧ Prints (f2_pm_tbl (msk M) qs [x, ['u', '*']]) (tblText padText (· * ·) L) () ∧
      Prints (f2_pm_tbl (msk M) qs [x, ['u', '.']]) (tblText padText (· * ·) L) () ∧
      Prints (f2_pm_tbl (msk M) qs [x, ['/']]) (tblText padText (fun a b => a * Ring.inverse b) L) () := by
  obtain ⟨mm, hp, hc, ht⟩ := mod_arg hx
  exact tbl_ops (rref M hc ht hpos hd hqs).toROps hp

/-- C105, f2_pm_tbl log:g: an exponent for each unit if `g` generates the group of units.  Otherwise the lines up to the first unit that is no
power of `g`, then an uncaught exception; if `g` is no unit, this is after the heading. -/
theorem C105_tbl_log {g : List Char} {w : AdjoinRoot m} (hg : F2Reads m g w) : ∃ L : List (AdjoinRoot m), Elems (F2nP.kv m) IsUnit L ∧
    (GenUnits w → ∃ ts, List.Forall₂ (LogLine padText (2 ^ 31) w) L ts ∧
      Prints (f2_pm_tbl (msk M) qs [x, ['l', 'o', 'g', ':'] ++ g]) (logHead ++ ts.flatten) ()) ∧
    ∀ pre y post, L = pre ++ y :: post → (∀ z ∈ pre, IsUnit w ∧ ∃ k : ℕ, w ^ k = z) → ¬ (IsUnit w ∧ ∃ k : ℕ, w ^ k = y) →
      ∃ ts, List.Forall₂ (LogLine padText (2 ^ 31) w) pre ts ∧
        ThrowsC (f2_pm_tbl (msk M) qs [x, ['l', 'o', 'g', ':'] ++ g]) (logHead ++ ts.flatten) := by
  obtain ⟨mm, hp, hc, ht⟩ := mod_arg hx
  have H := rref M hc ht hpos hd hqs
  obtain ⟨a, e1, e2⟩ := H.io.read hg
  exact tbl_log H hp e2 (tblArg_log e1)

/-- C105, f2_pm_tbl alog:g: the powers of a unit `g`, as many as there are units. -/
theorem C105_tbl_alog {g : List Char} {w : AdjoinRoot m} (hg : F2Reads m g w) :
    (IsUnit w → Prints (f2_pm_tbl (msk M) qs [x, ['a', 'l', 'o', 'g', ':'] ++ g]) (alogHead ++ alogText padText w (Nat.card (AdjoinRoot m)ˣ)) ()) ∧
    (¬ IsUnit w → ThrowsC (f2_pm_tbl (msk M) qs [x, ['a', 'l', 'o', 'g', ':'] ++ g]) alogHead) := by
  obtain ⟨mm, hp, hc, ht⟩ := mod_arg hx
  have H := rref M hc ht hpos hd hqs
  obtain ⟨a, e1, e2⟩ := H.io.read hg
  obtain ⟨L, h1, h2⟩ := tbl_alog H.toROps hp e2 (tblArg_alog e1)
  rw [h1.units_length] at h2
  exact h2

omit hqs hd in
/-- C105, f2_pm_tbl: a base that is no hexadecimal number, and any other operation: status 1 and nothing printed. -/
theorem C105_tbl_usage (cs : List Char) :
    ((∀ w : AdjoinRoot m, ¬ F2Reads m cs w) → Exits (f2_pm_tbl tm qs [x, ['l', 'o', 'g', ':'] ++ cs]) [] ∧
      Exits (f2_pm_tbl tm qs [x, ['a', 'l', 'o', 'g', ':'] ++ cs]) []) ∧
    (cs ∉ tblNames → ¬ ['l', 'o', 'g', ':'] <+: cs → ¬ ['a', 'l', 'o', 'g', ':'] <+: cs → Exits (f2_pm_tbl tm qs [x, cs]) []) := by
  obtain ⟨mm, hp, hc, ht⟩ := mod_arg hx
  exact ⟨fun h => tbl_bad_base hp ((io (tm := tm) (qs := qs) hc ht hpos).bad h), fun h h1 h2 => tbl_usage hp h h1 h2⟩

/-! ### Orders, logarithms -/

omit hqs in
/-- C105, f2_pm_ord: the order of each unit; at a residue that is no unit an uncaught exception, after its label. -/
theorem C105_ord : EachT (F2Reads m) (fun args => args ≠ []) IsUnit
    (fun several y t => t = lab several (padText y) ": ".toList ++ showInt (orderOf y) ++ ['\n'])
    (fun several y => lab several (padText y) ": ".toList) (fun args => f2_pm_ord (msk M) qs (x :: args)) := by
  obtain ⟨mm, hp, hc, ht⟩ := mod_arg hx
  exact ord_each (io (tm := msk M) (qs := qs) hc ht hpos) hp (fun h hu => (C59_f2_small M h hd).1 hu) (fun h hu => (C59_f2_small M h hd).2 hu)

omit hd in
/-- C105, f2_pm_log: an exponent for each power of the base; at any other residue an uncaught exception, after its label. -/
theorem C105_log_partial (hd : m.natDegree ≤ 30) {g : List Char} :
    (∀ w : AdjoinRoot m, F2Reads m g w → EachT (F2Reads m) (fun args => args ≠ []) (fun y => IsUnit w ∧ ∃ k : ℕ, w ^ k = y)
      (fun several y t => ∃ e : ℕ, e < 2 ^ 31 ∧ w ^ e = y ∧ t = lab several (padText y) ": ".toList ++ showInt e ++ ['\n'])
      (fun several y => lab several (padText y) ": ".toList) (fun args => f2_pm_log tm qs (x :: g :: args))) ∧
    ((∀ w : AdjoinRoot m, ¬ F2Reads m g w) → ∀ y r, Exits (f2_pm_log tm qs (x :: g :: y :: r)) []) := by
  obtain ⟨mm, hp, hc, ht⟩ := mod_arg hx
  have hio := io (tm := tm) (qs := qs) hc ht hpos
  exact ⟨fun w hg => log_each hio hp (fun hg ha => C61_f2_log_partial hqs hg ha hd) hg, fun hg y r => log_base hio hp hg y r⟩

end

/-- C105: for a modulus of degree 17 that is irreducible the order of every unit is undefined. -/
theorem C105_violated_ord_17 (hx : IsHex x m) (hirr : Irreducible m) (hd : m.natDegree = 17) {y : List Char} {c : AdjoinRoot m}
    (hy : F2Reads m y c) (hu : IsUnit c) : IsUb (f2_pm_ord (msk M) qs [x, y]) := by
  obtain ⟨mm, hp, hc, ht⟩ := mod_arg hx
  obtain ⟨a, e1, e2⟩ := (io (tm := msk M) (qs := qs) hc ht (by omega)).read hy
  show IsUb (f2Arg x >>= fun m => _)
  rw [skip hp]
  show IsUb (ord1 (f2RTool (msk M) qs) mm (decide (1 < 1)) y >>= _)
  refine IsUb.bind ?_
  show IsUb (readArg _ y >>= _)
  rw [skip (readArg_prints e1)]
  exact (prints_pure ()).bind_ub (IsUb.bind (ub_lift (C59_violated_17 M e2 hu hirr hd)))

/-! ### Generators -/

/-- If all residues but 0 are units, then the group of units is cyclic. -/
theorem gen_of_field (hpos : 0 < m.natDegree) (h : ∀ y : AdjoinRoot m, y ≠ 0 → IsUnit y) : ∃ w : AdjoinRoot m, GenUnits w := by
  have hm0 : m ≠ 0 := ne_zero_of_natDegree_gt hpos
  have := F2U.finite_adjoin hm0
  have : Nontrivial (AdjoinRoot m) := AdjoinRoot.nontrivial m (by rw [degree_eq_natDegree hm0]; exact_mod_cast hpos.ne')
  have : NoZeroDivisors (AdjoinRoot m) := ⟨fun {a b} hab => by
    by_cases ha : a = 0
    · exact .inl ha
    · exact .inr ((h a ha).mul_right_eq_zero.1 hab)⟩
  have : IsDomain (AdjoinRoot m) := NoZeroDivisors.to_isDomain _
  obtain ⟨g, hg⟩ := IsCyclic.exists_generator (α := (AdjoinRoot m)ˣ)
  exact ⟨g, genUnits_iff.2 ⟨g.isUnit, by rw [orderOf_units]; exact orderOf_eq_card_of_forall_mem_zpowers hg⟩⟩

/-- The generator found for the modulus `m`: it is the least one, and all residues between 0 and it are units. -/
def FoundGen (w : AdjoinRoot m) : Prop :=
  GenUnits w ∧ (∀ y : AdjoinRoot m, GenUnits y → F2nP.kv m w ≤ F2nP.kv m y) ∧ ∀ y : AdjoinRoot m, y ≠ 0 → F2nP.kv m y < F2nP.kv m w → IsUnit y

/-- A residue that is neither 0 nor a unit comes before all generators. -/
def Blocked (m : (ZMod 2)[X]) : Prop := ∃ y : AdjoinRoot m, y ≠ 0 ∧ ¬ IsUnit y ∧ ∀ z : AdjoinRoot m, GenUnits z → F2nP.kv m y < F2nP.kv m z

theorem found_not_blocked {w : AdjoinRoot m} (h : FoundGen w) : ¬ Blocked m := fun ⟨y, h1, h2, h3⟩ => h2 (h.2.2 y h1 (h3 w h.1))

open F2U in
theorem gen_any (hc : Canon mm) (ht : toPoly mm = m) (hpos : 0 < m.natDegree) (hd : m.natDegree ≤ 15) :
    (∃ g, ∃ w : AdjoinRoot m, F2U.find_generator (msk M) mm = ok (some g) ∧ F2Mod.Rep m g w ∧ FoundGen w) ∨
    (F2U.find_generator (msk M) mm = .throw ∧ Blocked m) := by
  have hm0 : m ≠ 0 := ne_zero_of_natDegree_gt hpos
  have := F2U.finite_adjoin hm0
  have hcard := card_lt hm0 (by omega)
  obtain ⟨phi, e1, rfl⟩ := sat_false.1 (totient_card (some_mask M) hc ht hm0 (by unfold INT_MAX; omega) hcard)
  have key : ∀ (k : ℕ) (s : F2P), Canon s → 0 < nval (toPoly s) → nval (toPoly s) ≤ 2 ^ m.natDegree → 2 ^ m.natDegree < k + nval (toPoly s) →
      (∀ q : (ZMod 2)[X], 0 < nval q → nval q < nval (toPoly s) → IsUnit (AdjoinRoot.mk m q) ∧ ¬ GenUnits (AdjoinRoot.mk m q)) →
      (∃ g, ∃ w : AdjoinRoot m, Units.genLoop (fun s => do let d ← F2P.find_degree s; ok (decide (d < m.natDegree))) (fun s => F2Mod.mk' s mm)
        F2P.increment (order (msk M)) (Nat.card (AdjoinRoot m)ˣ : Int) k s = ok (some g) ∧ F2Mod.Rep m g w ∧ FoundGen w) ∨
      (Units.genLoop (fun s => do let d ← F2P.find_degree s; ok (decide (d < m.natDegree))) (fun s => F2Mod.mk' s mm)
        F2P.increment (order (msk M)) (Nat.card (AdjoinRoot m)ˣ : Int) k s = .throw ∧ Blocked m) := by
    intro k
    induction k with
    | zero => intro s _ _ h1 h2; omega
    | succ k ih =>
      intro s hs hs0 hsQ hk hall
      rw [Units.genLoop, find_degree_ok, ok_bind, ok_bind]
      by_cases hlt : (toPoly s).natDegree < m.natDegree
      · rw [if_pos (by simpa using hlt)]
        have hq0 : toPoly s ≠ 0 := fun h => by rw [h] at hs0; simp [nval] at hs0
        have hdeg : (toPoly s).degree < m.degree := degree_lt_degree hlt
        obtain ⟨a, e2, e3, -⟩ := F2Mod.mk'_ok hs.good hc ht hm0
        rw [e2, ok_bind]
        by_cases hu : IsUnit (AdjoinRoot.mk m (toPoly s))
        · rw [(C59_f2_small M e3 hd).1 hu, ok_bind]
          by_cases ho : orderOf (AdjoinRoot.mk m (toPoly s)) = Nat.card (AdjoinRoot m)ˣ
          · rw [if_pos (by exact_mod_cast ho)]
            refine .inl ⟨a, _, rfl, e3, genUnits_iff.2 ⟨hu, ho⟩, fun y hy => ?_, fun y hy0 hy => ?_⟩
            · obtain ⟨q, hq, rfl⟩ := F2nP.exists_red hm0 y
              rw [F2nP.kv_mk hdeg, F2nP.kv_mk hq]
              by_contra hcon
              rcases Nat.eq_zero_or_pos (nval q) with h0 | h0
              · have : q = 0 := nval_inj (by rw [h0]; simp [nval])
                rw [this, map_zero] at hy
                have := AdjoinRoot.nontrivial m (by rw [degree_eq_natDegree hm0]; exact_mod_cast hpos.ne')
                exact not_isUnit_zero hy.1
              · exact (hall q h0 (by omega)).2 hy
            · obtain ⟨q, hq, rfl⟩ := F2nP.exists_red hm0 y
              rw [F2nP.kv_mk hdeg, F2nP.kv_mk hq] at hy
              rcases Nat.eq_zero_or_pos (nval q) with h0 | h0
              · have : q = 0 := nval_inj (by rw [h0]; simp [nval])
                exact absurd (by rw [this, map_zero]) hy0
              · exact (hall q h0 hy).1
          · rw [if_neg (by exact_mod_cast ho)]
            obtain ⟨s', e4, e5, e6⟩ := increment_ok hs
            rw [e4, ok_bind]
            have hsQ' := F2nP.nval_lt_of_degree_lt hm0 hdeg
            refine ih s' e6 (by omega) (by omega) (by omega) fun q hq1 hq2 => ?_
            rcases Nat.lt_or_ge (nval q) (nval (toPoly s)) with h | h
            · exact hall q hq1 h
            · rw [nval_inj (show nval q = nval (toPoly s) by omega)]
              exact ⟨hu, fun hg => ho (genUnits_iff.1 hg).2⟩
        · rw [(C59_f2_small M e3 hd).2 hu, throw_bind]
          refine .inr ⟨rfl, AdjoinRoot.mk m (toPoly s), fun h0 => ?_, hu, fun z hz => ?_⟩
          · rw [AdjoinRoot.mk_eq_zero] at h0
            exact hq0 (eq_zero_of_dvd_of_degree_lt h0 hdeg)
          · obtain ⟨q, hq, rfl⟩ := F2nP.exists_red hm0 z
            rw [F2nP.kv_mk hdeg, F2nP.kv_mk hq]
            by_contra hcon
            rcases Nat.lt_or_ge (nval q) (nval (toPoly s)) with h | h
            · rcases Nat.eq_zero_or_pos (nval q) with h0 | h0
              · have : q = 0 := nval_inj (by rw [h0]; simp [nval])
                rw [this, map_zero] at hz
                have := AdjoinRoot.nontrivial m (by rw [degree_eq_natDegree hm0]; exact_mod_cast hpos.ne')
                exact not_isUnit_zero hz.1
              · exact (hall q h0 h).2 hz
            · rw [nval_inj (show nval q = nval (toPoly s) by omega)] at hz
              exact hu hz.1
      · exfalso
        have hall' : ∀ q : (ZMod 2)[X], 0 < nval q → q.degree < m.degree → IsUnit (AdjoinRoot.mk m q) ∧ ¬ GenUnits (AdjoinRoot.mk m q) := by
          intro q hq hqd
          refine hall q hq ?_
          have h1 := F2nP.nval_lt_of_degree_lt hm0 hqd
          have h2 : 2 ^ (toPoly s).natDegree ≤ nval (toPoly s) := by
            by_contra hcon
            have : (toPoly s).degree < (X ^ (toPoly s).natDegree : (ZMod 2)[X]).degree :=
              F2nP.degree_lt_of_nval (pow_ne_zero _ X_ne_zero) (by rw [natDegree_X_pow]; omega)
            rw [degree_X_pow] at this
            have hq0 : toPoly s ≠ 0 := fun h => by rw [h] at hs0; simp [nval] at hs0
            rw [degree_eq_natDegree hq0] at this
            exact lt_irrefl _ this
          have h3 : 2 ^ m.natDegree ≤ 2 ^ (toPoly s).natDegree := Nat.pow_le_pow_right (by norm_num) (by omega)
          omega
        have hz : ∀ q : (ZMod 2)[X], AdjoinRoot.mk m q ≠ 0 → 0 < nval q := fun q hq => by
          rcases Nat.eq_zero_or_pos (nval q) with h0 | h0
          · have : q = 0 := nval_inj (by rw [h0]; simp [nval])
            exact absurd (by rw [this, map_zero]) hq
          · exact h0
        obtain ⟨w, hw⟩ := gen_of_field hpos fun y hy => by
          obtain ⟨q, hq, rfl⟩ := F2nP.exists_red hm0 y
          exact (hall' q (hz q hy) hq).1
        obtain ⟨q, hq, rfl⟩ := F2nP.exists_red hm0 w
        have := AdjoinRoot.nontrivial m (by rw [degree_eq_natDegree hm0]; exact_mod_cast hpos.ne')
        exact (hall' q (hz q hw.1.ne_zero) hq).2 hw
  unfold F2U.find_generator
  rw [find_degree_ok, ok_bind, ht, if_neg (by omega), show F2P.totient (msk M) mm = _ from e1, ok_bind]
  have h1 : nval (toPoly F2P.one) = 1 := by
    rw [toPoly_one]
    have := F2nP.nval_X_pow 0
    simpa using this
  refine key _ _ canon_one (by omega) ?_ (by omega) fun q hq1 hq2 => by omega
  rw [h1]
  exact Nat.one_le_two_pow

theorem found_of_irreducible (hirr : Irreducible m) : ¬ Blocked m := fun ⟨y, h1, h2, _⟩ => by
  have := Fact.mk hirr
  exact h2 (isUnit_iff_ne_zero.2 h1)

/-- C105, f2_pm_tbl log and f2_pm_tbl alog: the base is the least generator of the group of units, if all residues between 0 and it are units, as
they are for an irreducible modulus.  If a residue that is no unit comes before all generators, the command ends with an uncaught exception. -/
theorem C105_tbl_gen (hpos : 0 < m.natDegree) (hd : m.natDegree ≤ 15) (hqs : IsQsort F2Mod.lt qs) (hx : IsHex x m) :
    (∃ w : AdjoinRoot m, FoundGen w ∧ (∃ L : List (AdjoinRoot m), Elems (F2nP.kv m) IsUnit L ∧ ∃ ts, List.Forall₂ (LogLine padText (2 ^ 31) w) L ts ∧
        Prints (f2_pm_tbl (msk M) qs [x, ['l', 'o', 'g']]) (logHead ++ ts.flatten) ()) ∧
      Prints (f2_pm_tbl (msk M) qs [x, ['a', 'l', 'o', 'g']]) (alogHead ++ alogText padText w (Nat.card (AdjoinRoot m)ˣ)) ()) ∨
    (Blocked m ∧ ¬ Irreducible m ∧ ThrowsC (f2_pm_tbl (msk M) qs [x, ['l', 'o', 'g']]) [] ∧ ThrowsC (f2_pm_tbl (msk M) qs [x, ['a', 'l', 'o', 'g']]) []) := by
  obtain ⟨mm, hp, hc, ht⟩ := mod_arg hx
  have H := rref M hc ht hpos hd hqs
  rcases gen_any M hc ht hpos hd with ⟨g, w, k1, k2, k3⟩ | ⟨k1, k2⟩
  · obtain ⟨e1, e2⟩ := tblArg_gen (T := f2RTool (msk M) qs) (m := mm) k1
    obtain ⟨L, h1, h2, -⟩ := tbl_log H hp k2 e1
    obtain ⟨L', h3, h4, -⟩ := tbl_alog H.toROps hp k2 e2
    refine .inl ⟨w, k3, ⟨L, h1, h2 k3.1⟩, ?_⟩
    have h5 := h4 k3.1.1
    rw [h3.units_length] at h5
    exact h5
  · exact .inr ⟨k2, fun hirr => found_of_irreducible hirr k2, tbl_gen_throws hp k1⟩

/-- A modulus of `f2_pm_find_gen`. -/
def GenMod (cs : List Char) (m : (ZMod 2)[X]) : Prop := IsHex cs m ∧ 0 < m.natDegree ∧ m.natDegree ≤ 15

theorem gen_hyp (cs : List Char) (m : (ZMod 2)[X]) (h : GenMod cs m ∧ ¬ Blocked m) : ∃ mm, Prints (f2Arg cs) [] mm ∧
    (f2RTool (msk M) qs).shM mm = ok (hex m) ∧ ((∃ g t, (f2RTool (msk M) qs).gen mm = ok (some g) ∧ (f2RTool (msk M) qs).sh g = ok t ∧
      ∃ w : AdjoinRoot m, FoundGen w ∧ t = padText w) ∨ ((f2RTool (msk M) qs).gen mm = ok none ∧ False)) := by
  obtain ⟨⟨h1, h2, h3⟩, h4⟩ := h
  obtain ⟨mm, hp, hc, ht⟩ := mod_arg h1
  refine ⟨mm, hp, by show F2P.print mm = _; rw [print_ok hc.ne_nil, ht]; rfl, .inl ?_⟩
  rcases gen_any M hc ht h2 h3 with ⟨g, w, k1, k2, k3⟩ | ⟨k1, k2⟩
  · exact ⟨g, _, k1, res_text h2 k2, w, k3, rfl⟩
  · exact absurd k2 h4

/-- The line of `f2_pm_find_gen` for the modulus `m`. -/
def FindLine (several : Bool) (m : (ZMod 2)[X]) (t : List Char) : Prop :=
  ∃ w : AdjoinRoot m, FoundGen w ∧ t = lab several (hex m) ": ".toList ++ padText w ++ ['\n']

theorem genLine_find {several : Bool} {ms : List (ZMod 2)[X]} {ts : List (List Char)}
    (h : List.Forall₂ (GenLine hex (fun m t => ∃ w : AdjoinRoot m, FoundGen w ∧ t = padText w) (fun _ => False) several) ms ts) :
    List.Forall₂ (FindLine several) ms ts := by
  refine h.imp fun m t ht => ?_
  rcases ht with ⟨g, ⟨w, h1, rfl⟩, h2⟩ | h
  · exact ⟨w, h1, h2⟩
  · exact h.1.elim

/-- C105, f2_pm_find_gen: the least generator for each modulus.  At a modulus for which a residue that is neither 0 nor a unit comes before all
generators, the program ends with an uncaught exception, after the label.  Thus the message for moduli without generator is never printed. -/
theorem C105_find_gen : (∀ args ms, args ≠ [] → List.Forall₂ (fun cs m => GenMod cs m ∧ ¬ Blocked m) args ms →
      ∃ ts, List.Forall₂ (FindLine (1 < args.length)) ms ts ∧ Prints (f2_pm_find_gen (msk M) qs args) ts.flatten 0) ∧
    (∀ pre bad post ms, List.Forall₂ (fun cs m => GenMod cs m ∧ ¬ Blocked m) pre ms → (∀ f, ¬ IsHex bad f) →
      ∃ ts, List.Forall₂ (FindLine (1 < (pre ++ bad :: post).length)) ms ts ∧ Exits (f2_pm_find_gen (msk M) qs (pre ++ bad :: post)) ts.flatten) ∧
    (∀ pre bad post ms m, List.Forall₂ (fun cs m => GenMod cs m ∧ ¬ Blocked m) pre ms → GenMod bad m → Blocked m →
      ∃ ts, List.Forall₂ (FindLine (1 < (pre ++ bad :: post).length)) ms ts ∧
        ThrowsC (f2_pm_find_gen (msk M) qs (pre ++ bad :: post)) (ts.flatten ++ lab (1 < (pre ++ bad :: post).length) (hex m) ": ".toList)) ∧
    ∀ m : (ZMod 2)[X], Irreducible m → ¬ Blocked m := by
  have hdis : ∀ (m : (ZMod 2)[X]) (t : List Char), (∃ w : AdjoinRoot m, FoundGen w ∧ t = padText w) → ¬ False := fun _ _ _ h => h
  refine ⟨fun args ms hne h => ?_, fun pre bad post ms h hbad => ?_, fun pre bad post ms m h hbad hbl => ?_, fun m => found_of_irreducible⟩
  · obtain ⟨ts, v, k1, k2, k3 | k3⟩ := find_gen_prints (gen_hyp M (qs := qs)) hdis hne h
    · exact ⟨ts, genLine_find k1, k3.1 ▸ k2⟩
    · obtain ⟨-, m, -, hf⟩ := k3
      exact hf.elim
  · obtain ⟨ts, k1, k2⟩ := find_gen_exits (gen_hyp M (qs := qs)) hdis (post := post) h (readArg_no hbad)
    exact ⟨ts, genLine_find k1, k2⟩
  · obtain ⟨h1, h2, h3⟩ := hbad
    obtain ⟨mm, hp, hc, ht⟩ := mod_arg h1
    rcases gen_any M hc ht h2 h3 with ⟨g, w, k1, k2, k3⟩ | ⟨k1, -⟩
    · exact absurd hbl (found_not_blocked k3)
    · obtain ⟨ts, e1, e2⟩ := find_gen_throws (gen_hyp M (qs := qs)) hdis (post := post) h hp
        (show (f2RTool (msk M) qs).shM mm = ok (hex m) by show F2P.print mm = _; rw [print_ok hc.ne_nil, ht]; rfl) k1
      exact ⟨ts, genLine_find e1, e2⟩

/-- C105: a multiple of x of degree at least 2 is such a modulus, unless the group of units is trivial. -/
theorem C105_violated_find_gen (hdvd : X ∣ m) (hd : 2 ≤ m.natDegree) (hu : Nat.card (AdjoinRoot m)ˣ ≠ 1) : Blocked m := by
  have hm0 : m ≠ 0 := ne_zero_of_natDegree_gt (show 0 < m.natDegree by omega)
  have hlt : (X : (ZMod 2)[X]).degree < m.degree := by rw [degree_X, degree_eq_natDegree hm0]; exact_mod_cast hd
  have := AdjoinRoot.nontrivial m (by rw [degree_eq_natDegree hm0]; exact_mod_cast (show m.natDegree ≠ 0 by omega))
  have hX : ¬ IsUnit (AdjoinRoot.mk m X) := fun hun => by
    rw [CMod.isUnit_mk] at hun
    exact not_isUnit_X (hun.isUnit_of_dvd' dvd_rfl hdvd)
  refine ⟨AdjoinRoot.mk m X, fun h0 => ?_, fun hun => ?_, fun z hz => ?_⟩
  · rw [AdjoinRoot.mk_eq_zero] at h0
    exact X_ne_zero (eq_zero_of_dvd_of_degree_lt h0 hlt)
  · exact hX hun
  · obtain ⟨q, hq, rfl⟩ := F2nP.exists_red hm0 z
    rw [F2nP.kv_mk hlt, F2nP.kv_mk hq]
    have hX2 : nval (X : (ZMod 2)[X]) = 2 := by simpa using F2nP.nval_X_pow 1
    have h12 : nval (1 : (ZMod 2)[X]) = 1 := by simpa using F2nP.nval_X_pow 0
    have have_fin := F2U.finite_adjoin hm0
    have n0 : nval q ≠ 0 := fun h => by
      have : q = 0 := nval_inj (by rw [h]; simp [nval])
      rw [this, map_zero] at hz
      exact not_isUnit_zero hz.1
    have n1 : nval q ≠ 1 := fun h => by
      have : q = 1 := nval_inj (by rw [h, h12])
      rw [this, map_one] at hz
      exact hu ((genUnits_iff.1 hz).2.symm.trans orderOf_one)
    have n2 : nval q ≠ 2 := fun h => by
      have : q = X := nval_inj (by rw [h, hX2])
      rw [this] at hz
      exact hX hz.1
    omega

/-- C105: for a constant modulus the search for a generator throws. -/
theorem C105_constant (hx : IsHex x m) (hd : m.natDegree = 0) : ThrowsC (f2_pm_find_gen tm qs [x]) [] ∧
    ThrowsC (f2_pm_tbl tm qs [x, ['l', 'o', 'g']]) [] ∧ ThrowsC (f2_pm_tbl tm qs [x, ['a', 'l', 'o', 'g']]) [] := by
  obtain ⟨mm, hp, hc, ht⟩ := mod_arg hx
  have hg : F2U.find_generator tm mm = .throw := by
    unfold F2U.find_generator
    rw [find_degree_ok, ok_bind, ht, if_pos (by omega)]
  refine ⟨?_, tbl_gen_throws (T := f2RTool tm qs) hp hg⟩
  show ThrowsC (f2Arg x >>= fun m => _) []
  exact hp.then_throws ((prints_pure ()).then_throws (throws_lift hg).bind)

/-! ### Minimal and characteristic polynomials -/

section
variable [hirr : Fact (Irreducible m)] (hI : (m.natDegree : Int) < INT_MAX) (hx : IsHex x m) {k : ℕ} (hk : m.natDegree ≤ k)
include hI hx hk

omit hI hk in
theorem pol_each {pol : F2Mod → Res F2P} {P : AdjoinRoot m → (ZMod 2)[X]}
    (h : ∀ a y, F2Mod.Rep m a y → (pol a).Ok fun p => Canon p ∧ toPoly p = P y) :
    Each (F2Reads m) (fun cs => ∀ y, ¬ F2Reads m cs y) (fun args => args ≠ []) (fun _ => True)
      (fun several y t => t = lab several (padText y) ": ".toList ++ hex (P y) ++ ['\n']) (fun args => rPol pol (x :: args)) := by
  obtain ⟨mm, hp, hc, ht⟩ := mod_arg hx
  have hio := io (tm := msk 0) (qs := id) hc ht hirr.out.natDegree_pos
  refine each (body := pol1 pol mm) (fun args hne => ?_) (fun several cs y hy _ => ⟨_, rfl, ?_⟩) (fun several cs hno => ?_)
  · obtain ⟨z, r, rfl⟩ := List.exists_cons_of_ne_nil hne
    exact skip hp _
  · obtain ⟨a, e1, e2⟩ := hio.read hy
    obtain ⟨p, e3, e4, e5⟩ := h a y e2
    refine ((readArg_prints e1).then ((prints_lift e3).then ((rLabel_prints several (hio.sh _ _ e2)).bind
      (putLine_prints (t := hex (P y)) ?_)))).of_eq (List.append_assoc _ _ _).symm
    rw [print_ok e4.ne_nil, e5]
    rfl
  · exact (readArg_exits (hio.bad hno)).bind

/-- C105, f2_pm_min_pol: the minimal polynomial over F2 of each residue. -/
theorem C105_min_pol : Each (F2Reads m) (fun cs => ∀ y, ¬ F2Reads m cs y) (fun args => args ≠ []) (fun _ => True)
    (fun several y t => t = lab several (padText y) ": ".toList ++ hex (minpoly (ZMod 2) y) ++ ['\n']) (fun args => f2_pm_min_pol (msk M) k (x :: args)) :=
  pol_each hx fun _ _ h => sat_false.1 (LA.C65_kernel_min (some_mask M) h hI hk)

/-- C105, f2_pm_ch_pol: the characteristic polynomial over F2 of the multiplication by each residue. -/
theorem C105_ch_pol : Each (F2Reads m) (fun cs => ∀ y, ¬ F2Reads m cs y) (fun args => args ≠ []) (fun _ => True)
    (fun several y t => t = lab several (padText y) ": ".toList ++ hex (Algebra.lmul (ZMod 2) (AdjoinRoot m) y).charpoly ++ ['\n'])
    (fun args => f2_pm_ch_pol (msk M) k (x :: args)) :=
  pol_each hx fun _ _ h => sat_false.1 (LA.C65_kernel_char (some_mask M) h hI hk)

end

/-- C105: for the reducible modulus x^2 both commands loop forever at the residue x, whatever the number of rounds allowed. -/
theorem C105_violated_min_pol (k : ℕ) :
    ((f2_pm_min_pol (msk M) k ["4".toList, "2".toList]).run = .timeout ∨ IsUb (f2_pm_min_pol (msk M) k ["4".toList, "2".toList])) ∧
    ((f2_pm_ch_pol (msk M) k ["4".toList, "2".toList]).run = .timeout ∨ IsUb (f2_pm_ch_pol (msk M) k ["4".toList, "2".toList])) := by
  have h1 : Prints (f2Arg "4".toList) [] [4#64] := by unfold Prints; decide +kernel
  have h2 : Prints (readArg (PText.f2nOne [4#64]) "2".toList) [] ⟨[2#64], [4#64]⟩ := by unfold Prints; decide +kernel
  have key : ∀ pol : F2Mod → Res F2P, (pol ⟨[2#64], [4#64]⟩ = .timeout ∨ pol ⟨[2#64], [4#64]⟩ = .ub) →
      ((rPol pol ["4".toList, "2".toList]).run = .timeout ∨ IsUb (rPol pol ["4".toList, "2".toList])) := by
    intro pol h
    have e : rPol pol ["4".toList, "2".toList] = (do
        let p ← lift (pol ⟨[2#64], [4#64]⟩)
        rLabel false PText.f2ModShow ⟨[2#64], [4#64]⟩
        putLine F2P.print p
        pure ()) := by
      show (f2Arg "4".toList >>= fun m => _) = _
      rw [skip h1]
      show (pol1 pol [4#64] false "2".toList >>= fun _ => pure ()) = _
      rw [pol1, bind_assoc, skip h2]
      simp only [bind_assoc]
    rw [e]
    rcases h with h | h
    · left; rw [h]; rfl
    · right; exact (ub_lift h).bind
  have hmin : LinAlg.f2_minimal_polynomial (msk M) k ⟨[2#64], [4#64]⟩ = .timeout ∨ LinAlg.f2_minimal_polynomial (msk M) k ⟨[2#64], [4#64]⟩ = .ub := by
    have e1 : F2Mod.prime_subfield_element 1 [4#64] = ok ⟨[1#64], [4#64]⟩ := by decide +kernel
    unfold LinAlg.f2_minimal_polynomial
    rw [e1, ok_bind, find_degree_ok, ok_bind]
    rcases LA.C65_reducible_loops k with h | h
    · left; rw [show LinAlg.f2_frobenius_length k ⟨[2#64], [4#64]⟩ = _ from h]; rfl
    · right; rw [show LinAlg.f2_frobenius_length k ⟨[2#64], [4#64]⟩ = _ from h]; rfl
  refine ⟨key _ hmin, key _ ?_⟩
  unfold LinAlg.f2_characteristic_polynomial
  rcases hmin with h | h
  · left; rw [h]; rfl
  · right; rw [h]; rfl

/-! ### Conversion -/

/-- C105, f2_pm_convert: if the degree of the first modulus divides that of the second, each residue is sent through the homomorphism that takes the
least generator of the first field to the least root of its minimal polynomial in the second field.  Otherwise the command ends with status 1. -/
theorem C105_convert {n : (ZMod 2)[X]} {y : List Char} {vs : List F2Mod → List F2Mod} (hvs : IsSort F2Mod.lt vs) (hqs : IsQsort F2Mod.lt qs)
    (hx : IsHex x m) (hy : IsHex y n) (hm : Irreducible m) (hn : Irreducible n) (hd : m.natDegree ≤ 15) (hd2 : n.natDegree ≤ 30) :
    (m.natDegree ∣ n.natDegree → ∃ (φ : AdjoinRoot m →+* AdjoinRoot n) (w : AdjoinRoot m), FoundGen w ∧
      (∀ z : AdjoinRoot n, aeval z (minpoly (ZMod 2) w) = 0 → F2nP.kv n (φ w) ≤ F2nP.kv n z) ∧
      Each (F2Reads m) (fun cs => ∀ y, ¬ F2Reads m cs y) (fun args => args ≠ []) (fun _ => True)
        (fun several z t => t = lab several (padText z) ": ".toList ++ padText (φ z) ++ ['\n'])
        (fun args => f2_pm_convert (msk M) qs vs (x :: y :: args))) ∧
    (¬ m.natDegree ∣ n.natDegree → ∀ z r, Exits (f2_pm_convert (msk M) qs vs (x :: y :: z :: r)) []) := by
  obtain ⟨mm, hp, hc, ht⟩ := mod_arg hx
  obtain ⟨nn, hp2, hc2, ht2⟩ := mod_arg hy
  have := Fact.mk hm
  have := Fact.mk hn
  rcases gen_any M hc ht hm.natDegree_pos hd with ⟨g, w, k1, k2, k3⟩ | ⟨-, k2⟩
  swap
  · exact absurd k2 (found_of_irreducible hm)
  have hI : (m.natDegree : Int) ≤ INT_MAX := by unfold INT_MAX; omega
  have hgen : IsGen w := fun u => k3.1.2 _ u.isUnit
  obtain ⟨r, e1, e2⟩ := LA.C86_prep_partial hvs hI hd2 k2 hc2 ht2
  obtain ⟨r', e1', e3, -⟩ := LA.C86_prep_iff hvs hI hd2 k2 hgen hc2 ht2
  obtain rfl : r = r' := by rw [e1] at e1'; injection e1'
  have hcmd : ∀ z l, f2_pm_convert (msk M) qs vs (x :: y :: z :: l) = (lift (Convert.prep vs g nn) >>= fun
      | none => exit1
      | some g2 => (z :: l).forM (conv1 qs mm g g2 (1 < (z :: l).length))) := fun z l => by
    rw [f2_pm_convert, skip hp, skip hp2, skip (prints_lift k1)]
    rfl
  refine ⟨fun hdvd => ?_, fun hdvd z l => ?_⟩
  · cases r with
    | none => exact absurd (e3.2 hdvd) (by simp)
    | some g2 =>
      obtain ⟨v, f1, f2, f3⟩ := e2
      obtain ⟨φ, p1, -, -, p4, -⟩ := LA.C86_convert_partial hqs (by omega) k2 f1 k3.1.1.ne_zero hgen f2
      have hio := io (tm := msk M) (qs := qs) hc ht hm.natDegree_pos
      refine ⟨φ, w, k3, fun z hz => p1 ▸ f3 z hz, each (body := conv1 qs mm g g2) (fun args hne => ?_) (fun several cs z hz _ => ⟨_, rfl, ?_⟩) fun several cs hno => ?_⟩
      · obtain ⟨z, l, rfl⟩ := List.exists_cons_of_ne_nil hne
        exact (hcmd z l).trans (skip (prints_lift e1) _)
      · obtain ⟨a, q1, q2⟩ := hio.read hz
        obtain ⟨b, q3, q4⟩ := p4 a z q2
        exact ((readArg_prints q1).then ((prints_lift q3).then ((rLabel_prints several (hio.sh _ _ q2)).bind
          (putLine_prints (res_text hn.natDegree_pos q4))))).of_eq (List.append_assoc _ _ _).symm
      · exact (readArg_exits (hio.bad hno)).bind
  · cases r with
    | none =>
      rw [hcmd z l]
      exact (prints_lift e1).then_exits exits_exit1
    | some g2 => exact absurd (e3.1 rfl) hdvd

/-! ### Logarithms are not reduced -/

/-- C105: the residue x^5 modulo the irreducible polynomial x^7+x+1 has the logarithm 5 to the base x, and that of x^12 is printed as 139, though
the order of x is 127.  For the reducible modulus x^3+1 the table of logarithms prints 6, 7, 8 though the order is 3. -/
theorem C105_violated_log : (f2_pm_log (msk 5) (isort F2Mod.lt) ["83".toList, "2".toList, "60".toList]).run = ok ("139\n".toList, .val ()) ∧
    (f2_pm_ord (msk 5) (isort F2Mod.lt) ["83".toList, "2".toList]).run = ok ("127\n".toList, .val ()) ∧
    (f2_pm_tbl (msk 5) (isort F2Mod.lt) ["9".toList, "log".toList]).run = ok (logHead ++ "1 6\n2 7\n4 8\n".toList, .val ()) := by
  refine ⟨?_, ?_, ?_⟩ <;> decide +kernel

example : (f2_pm_tbl (msk 5) (isort F2Mod.lt) ["7".toList, "/".toList]).run = ok ("1 3 2\n2 1 3\n3 2 1\n".toList, .val ()) := by decide +kernel
example : (f2_pm_tbl (msk 5) (isort F2Mod.lt) ["1f".toList, "log:2".toList]).run = ok (logHead ++ "1 0\n2 1\n".toList, .thrown) := by decide +kernel
example : (f2_pm_ord (msk 5) (isort F2Mod.lt) ["13".toList, "2".toList, "6".toList, "0".toList]).run = ok ("2: 15\n6: 3\n0: ".toList, .thrown) := by
  decide +kernel
example : (f2_pm_find_gen (msk 5) (isort F2Mod.lt) ["13".toList, "11b".toList]).run = ok ("13: 2\n11b: 03\n".toList, .val 0) := by decide +kernel
example : (f2_pm_find_gen (msk 5) (isort F2Mod.lt) ["13".toList, "4".toList]).run = ok ("13: 2\n4: ".toList, .thrown) := by decide +kernel
example : (f2_pm_find_gen (msk 5) (isort F2Mod.lt) ["5".toList, "9".toList]).run = ok ("5: 2\n9: 2\n".toList, .val 0) := by decide +kernel
example : (f2_pm_log (msk 5) (isort F2Mod.lt) ["13".toList, "2".toList, "3".toList, "6".toList, "0".toList]).run =
    ok ("3: 4\n6: 5\n0: ".toList, .thrown) := by decide +kernel
example : (f2_pm_ch_pol (msk 5) 4 ["13".toList, "6".toList, "b".toList]).run = ok ("6: 15\nb: 19\n".toList, .val ()) := by decide +kernel
example : (f2_pm_min_pol (msk 5) 4 ["13".toList, "6".toList, "b".toList]).run = ok ("6: 7\nb: 19\n".toList, .val ()) := by decide +kernel
example : (f2_pm_convert (msk 5) (isort F2Mod.lt) LA.vsort ["13".toList, "19".toList, "2".toList, "6".toList, "0".toList]).run =
    ok ("2: 6\n6: b\n0: 0\n".toList, .val ()) := by decide +kernel
example : (f2_pm_convert (msk 5) (isort F2Mod.lt) LA.vsort ["7".toList, "b".toList, "2".toList, "3".toList]).run = ok ([], .exit1) := by decide +kernel

end Spffl.Props.Cmd105
