import Verif.Proof.CmdRes
import Verif.Props.Lists
import Verif.Props.PolyText
import Verif.Props.Cmd

/-!
# C104: the commands for residues modulo an integer
-/

namespace Spffl.Props.Cmd104
open Res Scan Spffl.Cmd Lists PText93

variable {n : ℕ} {x : List Char} {qs : List (IntMod × ℕ) → List (IntMod × ℕ)}

/-- The text of a residue: its representative from 0 to n - 1 in decimal notation. -/
def resText (c : ZMod n) : List Char := showInt c.val

theorem io (h0 : 0 < n) (hn : n ≤ 2147483647) : RIO (fpRTool qs) (n : Int) (IntMod.Rep n) (FpReads n) resText where
  read h := sat_false.1 ((fp_one h0 (by unfold InInt; omega)).yes _ _ h) |>.elim fun _ ⟨e, b, hb, hr⟩ => ⟨b, hb ▸ e, hr⟩
  bad h := (fp_one h0 (by unfold InInt; omega)).no _ h
  sh a c h := by
    show showMod a = _
    unfold showMod
    rw [IntMod.check_modulus_ok h, ok_bind, residue_val h]
    rfl

theorem lists {r : Res (List IntMod)} {S : ZMod n → Prop}
    (h : r.Ok fun r => Listing (IntMod.Rep n) (fun a b => a.residue < b.residue) r S) : Cmd.Lists (IntMod.Rep n) ZMod.val r S := by
  refine lists_of (lt := fun a b => a.residue < b.residue) (fun a b u v ha hb hlt => ?_) h
  rw [residue_val ha, residue_val hb] at hlt
  exact_mod_cast hlt

/-- C104, fp_list: all residues, the units, the non-units; with a residue its multiples and the residues relatively prime to it.  One per line, in
ascending order. -/
theorem C104_list (hn2 : 2 ≤ n) (hn : n ≤ 2147483647) (hx : IsInt x n) :
    (∃ w, Ascend (R := ZMod n) ZMod.val resText (fun _ => True) w ∧ Prints (fp_list qs ["-a".toList, x]) w ()) ∧
    (∃ w, Ascend (R := ZMod n) ZMod.val resText IsUnit w ∧ Prints (fp_list qs ["-u".toList, x]) w ()) ∧
    (∃ w, Ascend (R := ZMod n) ZMod.val resText (fun y => ¬ IsUnit y) w ∧ Prints (fp_list qs ["-nu".toList, x]) w ()) ∧
    ∀ g, (∀ c : ZMod n, FpReads n g c →
        (∃ w, Ascend ZMod.val resText (fun y => c ∣ y) w ∧ Prints (fp_list qs ["-m".toList, g, x]) w ()) ∧
        ∃ w, Ascend ZMod.val resText (fun y => IsCoprime y c) w ∧ Prints (fp_list qs ["-rp".toList, g, x]) w ()) ∧
      ((∀ c : ZMod n, ¬ FpReads n g c) → Exits (fp_list qs ["-m".toList, g, x]) [] ∧ Exits (fp_list qs ["-rp".toList, g, x]) []) := by
  have hp : Prints (intArg x) [] (n : Int) := intArg_prints hx
  have hio := io (n := n) (qs := qs) (by omega) hn
  refine ⟨list_prints hio hp flag_a (lists (C70_int_all (by omega) hn)), list_prints hio hp flag_u (lists (C70_int_units hn2 hn)),
    list_prints hio hp flag_nu (lists (C70_int_non_units hn2 hn)), fun g => ⟨fun c hc => ⟨?_, ?_⟩, fun hno => ⟨?_, ?_⟩⟩⟩
  · exact glist_prints hio hp flag_m (S := fun c y => c ∣ y) hc fun a ha => lists (C70_int_multiples ha hn)
  · exact glist_prints hio hp flag_rp (S := fun c y => IsCoprime y c) hc fun a ha => lists (C70_int_rel_prime ha hn)
  · exact glist_exits hio hp flag_m hno
  · exact glist_exits hio hp flag_rp hno

/-- `Ascend` determines the text; for all residues it is the numbers from 0 to n - 1. -/
theorem C104_ascend [NeZero n] (S : ZMod n → Prop) (t t' : List Char) :
    (Ascend ZMod.val resText S t → Ascend ZMod.val resText S t' → t = t') ∧
    Ascend (R := ZMod n) ZMod.val resText (fun _ => True) ((List.range n).flatMap fun i => showNat i ++ ['\n']) := by
  refine ⟨?_, ?_⟩
  · rintro ⟨L, h1, rfl⟩ ⟨L', h2, rfl⟩
    rw [h1.unique h2]
  · refine ⟨(List.range n).map (Nat.cast : ℕ → ZMod n), ⟨?_, fun y => ?_⟩, ?_⟩
    · rw [List.pairwise_map]
      refine List.Pairwise.imp_of_mem (fun {a b} ha hb hlt => ?_) List.pairwise_lt_range
      rw [ZMod.val_cast_of_lt (List.mem_range.1 ha), ZMod.val_cast_of_lt (List.mem_range.1 hb)]
      exact hlt
    · simp only [List.mem_map, List.mem_range, iff_true]
      exact ⟨y.val, y.val_lt, by simp⟩
    · rw [List.flatMap_map]
      refine List.flatMap_congr fun i hi => ?_
      rw [resText, ZMod.val_cast_of_lt (List.mem_range.1 hi)]
      rfl

example : (fp_list (isort IntMod.lt) ["-u".toList, "6".toList]).run = ok ("1\n5\n".toList, .val ()) ∧
    (fp_list (isort IntMod.lt) ["-rp".toList, "4".toList, "6".toList]).run = ok ("1\n3\n5\n".toList, .val ()) := by constructor <;> decide +kernel

/-- C104: modulo 1 the only residue is a unit, but its listing and that of the non-units, which is empty, end with an exception. -/
theorem C104_violated_list_one (hx : IsInt x 1) : ThrowsC (fp_list qs ["-u".toList, x]) [] ∧ ThrowsC (fp_list qs ["-nu".toList, x]) [] := by
  constructor
  · exact (show Prints (listFlag "-u".toList) [] LType.units from rfl).then_throws ((intArg_prints hx).then_throws (throws_lift rfl).bind)
  · exact (show Prints (listFlag "-nu".toList) [] LType.non_units from rfl).then_throws ((intArg_prints hx).then_throws
      ((prints_lift rfl).then_throws (ThrowsC.bind (ThrowsC.bind (throws_lift rfl).bind))))

/-- C104: other selections, other numbers of arguments and moduli that are not integers: status 1 and nothing printed. -/
theorem C104_usage (x g : List Char) : (∀ f, f ≠ "-a".toList ∧ f ≠ "-u".toList ∧ f ≠ "-nu".toList → Exits (fp_list qs [f, x]) []) ∧
    (∀ f, f ≠ "-m".toList ∧ f ≠ "-rp".toList → Exits (fp_list qs [f, g, x]) []) ∧
    (∀ args, args.length ≠ 2 → args.length ≠ 3 → Exits (fp_list qs args) [] ∧ Exits (fp_orbit args) []) ∧
    (∀ args, args.length ≠ 2 → Exits (fp_tbl qs args) []) ∧ (∀ args, args.length < 2 → Exits (fp_ord qs args) []) ∧
    (∀ args, args.length ≠ 1 → Exits (fp_max_ord qs args) []) ∧ Exits (fp_find_gen qs []) [] ∧
    (∀ args, args.length < 3 → Exits (fp_log qs args) []) := by
  refine ⟨fun f => list_flag, fun f => glist_flag, fun args h2 h3 => ?_, fun args h => ?_, fun args h => ?_, fun args h => ?_, exits_exit1,
    fun args h => ?_⟩
  · match args with
    | [] | [_] | _ :: _ :: _ :: _ :: _ => exact ⟨exits_exit1, exits_exit1⟩
    | [_, _] => exact absurd rfl h2
    | [_, _, _] => exact absurd rfl h3
  · match args with
    | [] | [_] | _ :: _ :: _ :: _ => exact exits_exit1
    | [_, _] => exact absurd rfl h
  · match args with
    | [] | [_] => exact exits_exit1
    | _ :: _ :: _ => simp at h
  · match args with
    | [] | _ :: _ :: _ => exact exits_exit1
    | [_] => exact absurd rfl h
  · match args with
    | [] | [_] | [_, _] => exact exits_exit1
    | _ :: _ :: _ :: _ => simp at h; omega

theorem C104_usage_modulus (hx : NotInt x) (y z : List Char) (r : List (List Char)) : Exits (fp_list qs [y, x]) [] ∧ Exits (fp_list qs [y, z, x]) [] ∧
    Exits (fp_tbl qs [x, y]) [] ∧ Exits (fp_ord qs (x :: y :: r)) [] ∧ Exits (fp_max_ord qs [x]) [] ∧ Exits (fp_orbit [x, y]) [] ∧
    Exits (fp_orbit [x, y, z]) [] ∧ Exits (fp_log qs (x :: y :: z :: r)) [] := by
  have h := intArg_exits hx
  refine ⟨?_, ?_, h.bind, h.bind, h.bind, h.bind, h.bind, h.bind⟩
  · show Exits (listFlag y >>= _) []
    unfold listFlag
    split_ifs
    · exact (prints_pure _).then_exits h.bind
    · exact (prints_pure _).then_exits h.bind
    · exact (prints_pure _).then_exits h.bind
    · exact exits_exit1.bind
  · show Exits (glistFlag y >>= _) []
    unfold glistFlag
    split_ifs
    · exact (prints_pure _).then_exits h.bind
    · exact (prints_pure _).then_exits h.bind
    · exact exits_exit1.bind

/-! ### Tables -/

theorem rref (hn2 : 2 ≤ n) (hn : n ≤ 46341) (hqs : IsQsort IntMod.lt qs) :
    RRef (fpRTool qs) (n : Int) (IntMod.Rep n) ZMod.val (FpReads n) resText (Nat.card (ZMod n)ˣ) where
  io := io (by omega) (by omega)
  add h h' := sat_false.1 ((IntMod.cops_ref hn2 hn).add h h')
  sub h h' := sat_false.1 ((IntMod.cops_ref hn2 hn).sub h h')
  mul h h' := sat_false.1 ((IntMod.cops_ref hn2 hn).mul h h')
  div h h' hz := sat_false.1 ((IntMod.cops_ref hn2 hn).div h h' hz)
  div_throw h h' hu := ((IntMod.cops_ref hn2 hn).div_throw h h' hu).resolve_right fun hf => hf.1
  all := lists (C70_int_all (by omega) (by omega))
  units := lists (C70_int_units hn2 (by omega))
  order h hu := (C59_fp_order hn2 hn h).1 hu
  order_throw h hu := (C59_fp_order hn2 hn h).2 hu
  log := fun hg ha => C61_fp_log hn2 hn hqs hg ha

section
variable (hn2 : 2 ≤ n) (hn : n ≤ 46341) (hqs : IsQsort IntMod.lt qs) (hx : IsInt x n)
include hn2 hn hqs hx

/-- C104, fp_tbl: the tables of addition, subtraction and multiplication of all residues, and of multiplication and division of the units, with
the residues in ascending order in rows and columns. -/
theorem C104_tbl : (∃ L : List (ZMod n), Elems ZMod.val (fun _ => True) L ∧
      Prints (fp_tbl qs [x, ['+']]) (tblText resText (· + ·) L) () ∧ Prints (fp_tbl qs [x, ['-']]) (tblText resText (· - ·) L) () ∧
      Prints (fp_tbl qs [x, ['*']]) (tblText resText (· * ·) L) () ∧ Prints (fp_tbl qs [x, ['.']]) (tblText resText (· * ·) L) ()) ∧
    ∃ L : List (ZMod n), Elems ZMod.val IsUnit L ∧ Prints (fp_tbl qs [x, ['u', '*']]) (tblText resText (· * ·) L) () ∧
      Prints (fp_tbl qs [x, ['u', '.']]) (tblText resText (· * ·) L) () ∧
      Prints (fp_tbl qs [x, ['/']]) (tblText resText (fun a b => a * Ring.inverse b) L) () := tbl_ops (rref hn2 hn hqs).toROps (intArg_prints hx)

/-- C104, fp_tbl log:g: the logarithms of all units if `g` generates the group of units.  Otherwise the lines up to the first unit that is no
power of `g`, then an uncaught exception; if `g` is no unit, this is after the heading. -/
theorem C104_tbl_log {g : List Char} {w : ZMod n} (hg : FpReads n g w) : ∃ L : List (ZMod n), Elems ZMod.val IsUnit L ∧
    (GenUnits w → ∃ ts, List.Forall₂ (LogLine resText (Nat.card (ZMod n)ˣ) w) L ts ∧
      Prints (fp_tbl qs [x, ['l', 'o', 'g', ':'] ++ g]) (logHead ++ ts.flatten) ()) ∧
    ∀ pre y post, L = pre ++ y :: post → (∀ z ∈ pre, IsUnit w ∧ ∃ k : ℕ, w ^ k = z) → ¬ (IsUnit w ∧ ∃ k : ℕ, w ^ k = y) →
      ∃ ts, List.Forall₂ (LogLine resText (Nat.card (ZMod n)ˣ) w) pre ts ∧
        ThrowsC (fp_tbl qs [x, ['l', 'o', 'g', ':'] ++ g]) (logHead ++ ts.flatten) := by
  have H := rref hn2 hn hqs
  obtain ⟨a, e1, e2⟩ := H.io.read hg
  exact tbl_log H (intArg_prints hx) e2 (tblArg_log e1)

/-- C104, fp_tbl alog:g: the powers of a unit `g`, as many as there are units. -/
theorem C104_tbl_alog {g : List Char} {w : ZMod n} (hg : FpReads n g w) :
    (IsUnit w → Prints (fp_tbl qs [x, ['a', 'l', 'o', 'g', ':'] ++ g]) (alogHead ++ alogText resText w (Nat.totient n)) ()) ∧
    (¬ IsUnit w → ThrowsC (fp_tbl qs [x, ['a', 'l', 'o', 'g', ':'] ++ g]) alogHead) := by
  have H := rref hn2 hn hqs
  obtain ⟨a, e1, e2⟩ := H.io.read hg
  obtain ⟨L, h1, h2⟩ := tbl_alog H.toROps (intArg_prints hx) e2 (tblArg_alog e1)
  have : NeZero n := ⟨by omega⟩
  rw [h1.units_length, Nat.card_eq_fintype_card, ZMod.card_units_eq_totient] at h2
  exact h2

/-- C104, fp_tbl log and fp_tbl alog: the base is the least generator of the group of units; if there is none, status 1 and nothing printed. -/
theorem C104_tbl_gen :
    (∀ w : ZMod n, GenUnits w → (∀ y : ZMod n, GenUnits y → w.val ≤ y.val) →
      (∃ L : List (ZMod n), Elems ZMod.val IsUnit L ∧ ∃ ts, List.Forall₂ (LogLine resText (Nat.card (ZMod n)ˣ) w) L ts ∧
        Prints (fp_tbl qs [x, ['l', 'o', 'g']]) (logHead ++ ts.flatten) ()) ∧
      Prints (fp_tbl qs [x, ['a', 'l', 'o', 'g']]) (alogHead ++ alogText resText w (Nat.totient n)) ()) ∧
    ((¬ ∃ w : ZMod n, GenUnits w) → Exits (fp_tbl qs [x, ['l', 'o', 'g']]) [] ∧ Exits (fp_tbl qs [x, ['a', 'l', 'o', 'g']]) []) := by
  have H := rref hn2 hn hqs
  have : NeZero n := ⟨by omega⟩
  obtain ⟨r, hr, hm⟩ := C60_fp_generator hn2 hn
  cases r with
  | none => exact ⟨fun w hw _ => absurd ⟨w, hw⟩ hm, fun _ => tbl_no_gen (intArg_prints hx) hr⟩
  | some g =>
    obtain ⟨w', h1, h2, h3⟩ := hm
    refine ⟨fun w hw hle => ?_, fun hno => absurd ⟨w', h2⟩ hno⟩
    obtain rfl : w = w' := ZMod.val_injective n (le_antisymm (hle _ h2) (h3 _ hw))
    obtain ⟨e1, e2⟩ := tblArg_gen (T := fpRTool qs) (m := (n : Int)) hr
    obtain ⟨L, k1, k2, -⟩ := tbl_log H (intArg_prints hx) h1 e1
    obtain ⟨L', k3, k4, -⟩ := tbl_alog H.toROps (intArg_prints hx) h1 e2
    refine ⟨⟨L, k1, k2 hw⟩, ?_⟩
    have k5 := k4 hw.1
    rw [k3.units_length, Nat.card_eq_fintype_card, ZMod.card_units_eq_totient] at k5
    exact k5

omit hqs in
/-- C104, fp_tbl: a base that is no integer, and any other operation: status 1 and nothing printed. -/
theorem C104_tbl_usage (cs : List Char) :
    ((∀ w : ZMod n, ¬ FpReads n cs w) → Exits (fp_tbl qs [x, ['l', 'o', 'g', ':'] ++ cs]) [] ∧ Exits (fp_tbl qs [x, ['a', 'l', 'o', 'g', ':'] ++ cs]) []) ∧
    (cs ∉ tblNames → ¬ ['l', 'o', 'g', ':'] <+: cs → ¬ ['a', 'l', 'o', 'g', ':'] <+: cs → Exits (fp_tbl qs [x, cs]) []) :=
  ⟨fun h => tbl_bad_base (intArg_prints hx) ((io (qs := qs) (by omega) (by omega)).bad h), fun h h1 h2 => tbl_usage (intArg_prints hx) h h1 h2⟩

/-! ### Orders, generators, logarithms -/

omit hqs in
/-- C104, fp_ord: the order of each unit; at a residue that is no unit an uncaught exception, after its label. -/
theorem C104_ord : EachT (FpReads n) (fun args => args ≠ []) IsUnit
    (fun several y t => t = lab several (resText y) ": ".toList ++ showInt (orderOf y) ++ ['\n'])
    (fun several y => lab several (resText y) ": ".toList) (fun args => fp_ord qs (x :: args)) :=
  ord_each (io (qs := qs) (by omega) (by omega)) (intArg_prints hx) (fun h hu => (C59_fp_order hn2 hn h).1 hu) (fun h hu => (C59_fp_order hn2 hn h).2 hu)

omit hqs in
/-- C104, fp_max_ord: the exponent of the group of units, which is the largest order of a unit. -/
theorem C104_max_ord : Prints (fp_max_ord qs [x]) (showInt (Monoid.exponent (ZMod n)ˣ) ++ ['\n']) () ∧
    (∃ y : ZMod n, IsUnit y ∧ orderOf y = Monoid.exponent (ZMod n)ˣ) ∧ ∀ y : ZMod n, IsUnit y → orderOf y ≤ Monoid.exponent (ZMod n)ˣ := by
  have : NeZero n := ⟨by omega⟩
  have hex : Monoid.ExponentExists (ZMod n)ˣ := Monoid.ExponentExists.of_finite
  have h1 : ∃ y : ZMod n, IsUnit y ∧ orderOf y = Monoid.exponent (ZMod n)ˣ := by
    obtain ⟨g, hg⟩ := Monoid.exists_orderOf_eq_exponent hex
    exact ⟨g, g.isUnit, by rw [orderOf_units, hg]⟩
  have h2 : ∀ y : ZMod n, IsUnit y → orderOf y ≤ Monoid.exponent (ZMod n)ˣ := by
    rintro _ ⟨u, rfl⟩
    rw [orderOf_units]
    exact Monoid.orderOf_le_exponent hex u
  refine ⟨?_, h1, h2⟩
  obtain ⟨l, L, e1, e2, e3⟩ := lists (C70_int_units hn2 (by omega))
  obtain ⟨e, f1, f2, f3, f4⟩ := maxOrd_prints (T := fpRTool qs) (fun h hu => (C59_fp_order hn2 hn h).1 hu) e2 (fun y hy => (e3.2 y).1 hy) 0
  have he : e = Monoid.exponent (ZMod n)ˣ := by
    obtain ⟨y, hy1, hy2⟩ := h1
    have h3 := f4 y ((e3.2 y).2 hy1)
    rcases f2 with rfl | ⟨z, hz1, hz2⟩
    · omega
    · have := h2 z ((e3.2 z).1 hz1)
      omega
  rw [← he]
  exact (intArg_prints hx).then ((prints_lift e1).then (f1.then (outLine_prints _)))

/-- C104, fp_log: an exponent for each power of the base, below the number of units; at any other residue an uncaught exception, after its label. -/
theorem C104_log {g : List Char} : (∀ w : ZMod n, FpReads n g w → EachT (FpReads n) (fun args => args ≠ []) (fun y => IsUnit w ∧ ∃ k : ℕ, w ^ k = y)
      (fun several y t => ∃ e : ℕ, e < Nat.card (ZMod n)ˣ ∧ w ^ e = y ∧ t = lab several (resText y) ": ".toList ++ showInt e ++ ['\n'])
      (fun several y => lab several (resText y) ": ".toList) (fun args => fp_log qs (x :: g :: args))) ∧
    ((∀ w : ZMod n, ¬ FpReads n g w) → ∀ y r, Exits (fp_log qs (x :: g :: y :: r)) []) := by
  have H := rref hn2 hn hqs
  exact ⟨fun w hg => log_each H.io (intArg_prints hx) H.log hg, fun hg y r => log_base H.io (intArg_prints hx) hg y r⟩

end

example : (fp_tbl (isort IntMod.lt) ["5".toList, "u.".toList]).run = ok ("1 2 3 4\n2 4 1 3\n3 1 4 2\n4 3 2 1\n".toList, .val ()) := by decide +kernel
example : (fp_tbl (isort IntMod.lt) ["7".toList, "log".toList]).run =
    ok ("element power\n------- -----\n1 0\n2 2\n3 1\n4 4\n5 5\n6 3\n".toList, .val ()) := by decide +kernel
example : (fp_tbl (isort IntMod.lt) ["7".toList, "log:2".toList]).run = ok ("element power\n------- -----\n1 0\n2 1\n".toList, .thrown) := by
  decide +kernel
example : (fp_tbl (isort IntMod.lt) ["8".toList, "log".toList]).run = ok ([], .exit1) := by decide +kernel
example : (fp_ord (isort IntMod.lt) ["7".toList, "3".toList, "2".toList, "0".toList]).run = ok ("3: 6\n2: 3\n0: ".toList, .thrown) := by decide +kernel
example : (fp_max_ord (isort IntMod.lt) ["15".toList]).run = ok ("4\n".toList, .val ()) := by decide +kernel
example : (fp_log (isort IntMod.lt) ["7".toList, "3".toList, "2".toList, "6".toList]).run = ok ("2: 2\n6: 3\n".toList, .val ()) := by decide +kernel

/-- A modulus for which `C104_find_gen` holds. -/
def GenMod (cs : List Char) (n : ℕ) : Prop := IsInt cs n ∧ 2 ≤ n ∧ n ≤ 46341

theorem gen_hyp (cs : List Char) (n : ℕ) (h : GenMod cs n) : ∃ m, Prints (intArg cs) [] m ∧ (fpRTool qs).shM m = ok (showInt n) ∧
    ((∃ g t, (fpRTool qs).gen m = ok (some g) ∧ (fpRTool qs).sh g = ok t ∧
      ∃ w : ZMod n, GenUnits w ∧ (∀ y : ZMod n, GenUnits y → w.val ≤ y.val) ∧ t = resText w) ∨
    ((fpRTool qs).gen m = ok none ∧ ¬ ∃ w : ZMod n, GenUnits w)) := by
  obtain ⟨h1, h2, h3⟩ := h
  refine ⟨n, intArg_prints h1, rfl, ?_⟩
  obtain ⟨r, hr, hm⟩ := C60_fp_generator h2 h3
  cases r with
  | none => exact .inr ⟨hr, hm⟩
  | some g =>
    obtain ⟨w, k1, k2, k3⟩ := hm
    exact .inl ⟨g, _, hr, (io (qs := qs) (by omega) (by omega)).sh _ _ k1, w, k2, k3, rfl⟩

/-- The line of `fp_find_gen` for the modulus `n`: the least generator of the group of units, or a message if there is none. -/
def FindLine (several : Bool) (n : ℕ) (t : List Char) : Prop :=
  (∃ w : ZMod n, GenUnits w ∧ (∀ y : ZMod n, GenUnits y → w.val ≤ y.val) ∧ t = lab several (showInt n) ": ".toList ++ resText w ++ ['\n']) ∨
  ((¬ ∃ w : ZMod n, GenUnits w) ∧ t = lab several (showInt n) ": ".toList ++ "Generator not found.\n".toList)

theorem genLine_find {several : Bool} {ns : List ℕ} {ts : List (List Char)}
    (h : List.Forall₂ (GenLine (fun n : ℕ => showInt n) (fun n t => ∃ w : ZMod n, GenUnits w ∧ (∀ y : ZMod n, GenUnits y → w.val ≤ y.val) ∧ t = resText w)
      (fun n => ¬ ∃ w : ZMod n, GenUnits w) several) ns ts) : List.Forall₂ (FindLine several) ns ts := by
  refine h.imp fun n t ht => ?_
  rcases ht with ⟨g, ⟨w, h1, h2, rfl⟩, h4⟩ | h
  · exact .inl ⟨w, h1, h2, h4⟩
  · exact .inr h

/-- C104, fp_find_gen: one line per modulus.  The value of the command is 1 if some modulus has no generator, and 0 otherwise. -/
theorem C104_find_gen : (∀ args ns, args ≠ [] → List.Forall₂ GenMod args ns →
      ∃ ts v, List.Forall₂ (FindLine (1 < args.length)) ns ts ∧ Prints (fp_find_gen qs args) ts.flatten v ∧
        ((v = 0 ∧ ∀ n ∈ ns, ∃ w : ZMod n, GenUnits w) ∨ (v = 1 ∧ ∃ n ∈ ns, ¬ ∃ w : ZMod n, GenUnits w))) ∧
    ∀ pre bad post ns, List.Forall₂ GenMod pre ns → NotInt bad →
      ∃ ts, List.Forall₂ (FindLine (1 < (pre ++ bad :: post).length)) ns ts ∧ Exits (fp_find_gen qs (pre ++ bad :: post)) ts.flatten := by
  have hdis : ∀ (n : ℕ) (t : List Char), (∃ w : ZMod n, GenUnits w ∧ (∀ y : ZMod n, GenUnits y → w.val ≤ y.val) ∧ t = resText w) →
      ¬ ¬ ∃ w : ZMod n, GenUnits w := fun n t ⟨w, h, _⟩ hn => hn ⟨w, h⟩
  refine ⟨fun args ns hne h => ?_, fun pre bad post ns h hbad => ?_⟩
  · obtain ⟨ts, v, k1, k2, k3⟩ := find_gen_prints (gen_hyp (qs := qs)) hdis hne h
    refine ⟨ts, v, genLine_find k1, k2, k3.imp (fun k => ⟨k.1, fun n hn => not_not.1 (k.2 n hn)⟩) id⟩
  · obtain ⟨ts, k1, k2⟩ := find_gen_exits (gen_hyp (qs := qs)) hdis (post := post) h (intArg_exits hbad)
    exact ⟨ts, genLine_find k1, k2⟩

/-- C104: the program ends with status 0 in both cases. -/
theorem C104_violated_find_gen_status {args : List (List Char)} {ns : List ℕ} (hne : args ≠ []) (h : List.Forall₂ GenMod args ns) :
    ∃ t, spiff (fpTable qs) ("fp_find_gen".toList :: args) = ok (t, 0) := by
  obtain ⟨ts, v, -, k, -⟩ := C104_find_gen.1 args ns hne h
  refine ⟨_, (Cmd100.C100_status (fpTable qs) "fp_find_gen".toList (fun args => do let _ ← fp_find_gen qs args; pure ()) args _ rfl).1
    ((k.bind (prints_pure ())).of_eq (List.append_nil _))⟩

example : spiff (fpTable (isort IntMod.lt)) ["fp_find_gen".toList, "7".toList, "8".toList] = ok ("7: 3\n8: Generator not found.\n".toList, 0) := by
  decide +kernel

/-! ### Orbits -/

/-- The test at the start of `fp_orbit` fails only for even numbers. -/
theorem orbit_test (a p : Int) : ∃ g, F2P.gcd (F2P.ofInt a) (F2P.ofInt p) = ok g ∧ F2P.eqInt g 1 = ok (!decide (a % 2 = 0 ∧ p % 2 = 0)) := by
  unfold F2P.ofInt
  rcases Int.emod_two_eq a with ha | ha <;> rcases Int.emod_two_eq p with hp | hp <;> rw [ha, hp]
  · exact ⟨[0#64], by decide +kernel, by decide +kernel⟩
  · exact ⟨[1#64], by decide +kernel, by decide +kernel⟩
  · exact ⟨[1#64], by decide +kernel, by decide +kernel⟩
  · exact ⟨[1#64], by decide +kernel, by decide +kernel⟩

theorem orbit_eq {p a a0 : Int} (h : ¬ (a % 2 = 0 ∧ p % 2 = 0)) : orbit p a a0 = (do
    let a ← lift (imod a p)
    let a0 ← lift (imod a0 p)
    orbitLoop p a a0 (p.toNat + 2) a 0) := by
  obtain ⟨g, h1, h2⟩ := orbit_test a p
  unfold orbit
  rw [skip (prints_lift h1), skip (prints_lift h2), decide_eq_false h]
  rfl

theorem orbit_even {p a a0 : Int} (h : a % 2 = 0 ∧ p % 2 = 0) : Exits (orbit p a a0) [] := by
  obtain ⟨g, h1, h2⟩ := orbit_test a p
  unfold orbit
  rw [skip (prints_lift h1), skip (prints_lift h2), decide_eq_true h]
  exact exits_exit1

theorem imod_pos {a p : Int} (hp : 0 < p) (ha : InInt a) : imod a p = ok (a.tmod p) := by
  unfold imod
  have h1 := Int.natAbs_tdiv a p
  have h2 : a.natAbs / p.natAbs ≤ a.natAbs := Nat.div_le_self _ _
  have h3 : 0 ≤ a → 0 ≤ a.tdiv p := fun h => Int.tdiv_nonneg h hp.le
  have h5 : 0 ≤ -a → 0 ≤ (-a).tdiv p := fun h => Int.tdiv_nonneg h hp.le
  rw [Int.neg_tdiv] at h5
  have h4 : InInt (a.tdiv p) := by
    replace h1 : (a.tdiv p).natAbs = a.natAbs / p.natAbs := h1
    unfold InInt at ha ⊢
    omega
  rw [if_neg (by omega), if_pos h4]

/-- A line of `fp_orbit`. -/
def orbitLine (a0 : Int) (z : ZMod n) : List Char := showInt (((z.val : Int) * a0.tmod n).tmod n) ++ ['\n']

/-- C104: for a starting point that is not negative, what is printed is the residue of the product; for any starting point it is congruent to it. -/
theorem C104_orbit_line [NeZero n] (a0 : Int) (z : ZMod n) : (0 ≤ a0 → orbitLine a0 z = resText (z * (a0 : ZMod n)) ++ ['\n']) ∧
    ((((z.val : Int) * a0.tmod n).tmod n : Int) : ZMod n) = z * (a0 : ZMod n) := by
  have hc : ∀ b : Int, ((b.tmod n : Int) : ZMod n) = b := fun b => by
    rw [ZMod.intCast_eq_intCast_iff_dvd_sub]
    exact Int.dvd_self_sub_tmod
  have h2 : ((((z.val : Int) * a0.tmod n).tmod n : Int) : ZMod n) = z * (a0 : ZMod n) := by
    rw [hc, Int.cast_mul, hc]
    simp
  refine ⟨fun h => ?_, h2⟩
  have hn : (0 : Int) < n := by exact_mod_cast NeZero.pos n
  have h3 : 0 ≤ (z.val : Int) * a0.tmod n := mul_nonneg (by omega) (Int.tmod_nonneg _ h)
  unfold orbitLine resText
  rw [← h2]
  congr 2
  obtain ⟨k, hk⟩ : ∃ k : ℕ, ((z.val : Int) * a0.tmod n).tmod n = k := ⟨_, (Int.toNat_of_nonneg (Int.tmod_nonneg _ h3)).symm⟩
  have hlt := Int.tmod_lt_of_pos ((z.val : Int) * a0.tmod n) hn
  rw [hk, Int.cast_natCast, ZMod.val_cast_of_lt (by omega)]

theorem val_eq_one (hn2 : 2 ≤ n) (z : ZMod n) : ((z.val : Int) = 1) ↔ z = 1 := by
  have : NeZero n := ⟨by omega⟩
  have : Fact (1 < n) := ⟨by omega⟩
  constructor
  · intro h
    refine ZMod.val_injective n ?_
    rw [ZMod.val_one]
    exact_mod_cast h
  · rintro rfl
    rw [ZMod.val_one]
    rfl

theorem tmod_mul_val (h0 : 0 < n) (z w : ZMod n) : ((z.val : Int) * w.val).tmod n = (z * w).val := by
  have : NeZero n := ⟨by omega⟩
  rw [ZMod.val_mul, Int.tmod_eq_emod_of_nonneg (by positivity)]
  norm_cast

section
variable (hn2 : 2 ≤ n) (hn : n ≤ 46341) {a0 : Int}
include hn2 hn

theorem prod_bound {b c : Int} (hb : b.natAbs < n) (hc : c.natAbs < n) : InInt (b * c) := by
  have h1 : (b * c).natAbs ≤ 46340 * 46340 := by
    rw [Int.natAbs_mul]
    exact Nat.mul_le_mul (by omega) (by omega)
  unfold InInt
  omega

theorem val_abs (z : ZMod n) : ((z.val : Int)).natAbs < n := by
  have : NeZero n := ⟨by omega⟩
  exact z.val_lt

theorem tmod_abs (b : Int) : (b.tmod n).natAbs < n := by
  have h1 := Int.tmod_lt_of_pos b (b := n) (by omega)
  have h2 := Int.lt_tmod_of_pos b (b := n) (by omega)
  omega

/-- One round. -/
theorem orbit_step (z y : ZMod n) (i k : ℕ) (hi : i ≤ n) :
    orbitLoop n z.val (a0.tmod n) (k + 1) y.val i = (do
      out (orbitLine a0 y)
      if y = 1 then pure () else if n < i + 1 then exit1 else orbitLoop n z.val (a0.tmod n) k (y * z).val ((i + 1 : ℕ) : Int)) := by
  have h1 : imul y.val (a0.tmod n) = ok (y.val * a0.tmod n) := chk_ok (prod_bound hn2 hn (val_abs hn2 hn y) (tmod_abs hn2 hn a0))
  have h2 : imod (y.val * a0.tmod n) n = ok ((y.val * a0.tmod n).tmod n) :=
    imod_pos (by omega) (prod_bound hn2 hn (val_abs hn2 hn y) (tmod_abs hn2 hn a0))
  have h3 : imul y.val z.val = ok ((y.val : Int) * z.val) := chk_ok (prod_bound hn2 hn (val_abs hn2 hn y) (val_abs hn2 hn z))
  have h4 : imod (y.val * z.val) n = ok ((y * z).val : Int) := by
    rw [imod_pos (by omega) (prod_bound hn2 hn (val_abs hn2 hn y) (val_abs hn2 hn z)), tmod_mul_val (by omega)]
  have h5 : iadd i 1 = ok ((i + 1 : ℕ) : Int) := by
    unfold iadd
    rw [chk_ok (by unfold InInt; omega)]
    norm_cast
  rw [orbitLoop, skip (prints_lift h1), skip (prints_lift h2)]
  refine congrArg (fun g => out (orbitLine a0 y) >>= g) (funext fun _ => ?_)
  by_cases hy : y = 1
  · rw [if_pos hy, if_pos ((val_eq_one hn2 y).2 hy)]
  · rw [if_neg hy, if_neg (fun e => hy ((val_eq_one hn2 y).1 e)), skip (prints_lift h5)]
    by_cases hc : n < i + 1
    · rw [if_pos hc, if_pos (by exact_mod_cast hc)]
    · rw [if_neg hc, if_neg (by exact_mod_cast hc), skip (prints_lift h3), skip (prints_lift h4)]

theorem orbit_prints (z : ZMod n) (hz : IsUnit z) (j i k : ℕ) (hj : i + 1 + j = orderOf z) (hk : j < k) :
    Prints (orbitLoop n z.val (a0.tmod n) k (z ^ (i + 1)).val i) ((List.range (j + 1)).flatMap fun l => orbitLine a0 (z ^ (i + 1 + l))) () := by
  have : NeZero n := ⟨by omega⟩
  have hle : orderOf z ≤ n := by
    obtain ⟨u, rfl⟩ := hz
    rw [orderOf_units]
    refine (orderOf_le_card).trans ?_
    rw [Nat.card_eq_fintype_card, ZMod.card_units_eq_totient]
    exact Nat.totient_le n
  induction j generalizing i k with
  | zero =>
    obtain ⟨k, rfl⟩ : ∃ l, k = l + 1 := ⟨k - 1, by omega⟩
    rw [orbit_step hn2 hn z _ i k (by omega), if_pos (by rw [show i + 1 = orderOf z by omega, pow_orderOf_eq_one])]
    exact ((prints_out _).bind (prints_pure ())).of_eq (by simp)
  | succ j ih =>
    obtain ⟨k, rfl⟩ : ∃ l, k = l + 1 := ⟨k - 1, by omega⟩
    have hne : z ^ (i + 1) ≠ 1 := pow_ne_one_of_lt_orderOf (by omega) (by omega)
    rw [orbit_step hn2 hn z _ i k (by omega), if_neg hne, if_neg (by omega), ← pow_succ]
    refine ((prints_out _).bind (ih (i + 1) k (by omega) (by omega))).of_eq ?_
    rw [List.range_succ_eq_map (n := j + 1), List.flatMap_cons, List.flatMap_map]
    simp only [Nat.add_zero, Nat.succ_eq_add_one]
    refine congrArg _ (List.flatMap_congr fun l _ => ?_)
    rw [show i + 1 + 1 + l = i + 1 + (l + 1) by omega]

theorem orbit_exits (z : ZMod n) (hz : ¬ IsUnit z) (j i k : ℕ) (hj : i + j = n) (hk : j < k) :
    Exits (orbitLoop n z.val (a0.tmod n) k (z ^ (i + 1)).val i) ((List.range (j + 1)).flatMap fun l => orbitLine a0 (z ^ (i + 1 + l))) := by
  have hne : ∀ i, z ^ (i + 1) ≠ 1 := fun i e => hz (IsUnit.of_mul_eq_one (z ^ i) (by rw [← pow_succ', e]))
  induction j generalizing i k with
  | zero =>
    obtain ⟨k, rfl⟩ : ∃ l, k = l + 1 := ⟨k - 1, by omega⟩
    rw [orbit_step hn2 hn z _ i k (by omega), if_neg (hne i), if_pos (by omega)]
    exact ((prints_out _).bind_exits exits_exit1).of_eq (by simp)
  | succ j ih =>
    obtain ⟨k, rfl⟩ : ∃ l, k = l + 1 := ⟨k - 1, by omega⟩
    rw [orbit_step hn2 hn z _ i k (by omega), if_neg (hne i), if_neg (by omega), ← pow_succ]
    refine ((prints_out _).bind_exits (ih (i + 1) k (by omega) (by omega))).of_eq ?_
    rw [List.range_succ_eq_map (n := j + 1), List.flatMap_cons, List.flatMap_map]
    simp only [Nat.add_zero, Nat.succ_eq_add_one]
    refine congrArg _ (List.flatMap_congr fun l _ => ?_)
    rw [show i + 1 + 1 + l = i + 1 + (l + 1) by omega]

theorem orbit_start {a : Int} (ha : InInt a) (ha0 : 0 ≤ a) (h0 : InInt a0) (h : ¬ (a % 2 = 0 ∧ (n : Int) % 2 = 0)) :
    orbit n a a0 = orbitLoop n ((a : ZMod n).val : Int) (a0.tmod n) (n + 2) (((a : ZMod n) ^ (0 + 1)).val : Int) ((0 : ℕ) : Int) := by
  have : NeZero n := ⟨by omega⟩
  have e : a.tmod n = ((a : ZMod n).val : Int) := by
    obtain ⟨k, rfl⟩ := Int.eq_ofNat_of_zero_le ha0
    rw [Int.cast_natCast, ZMod.val_natCast, Int.tmod_eq_emod_of_nonneg (by omega)]
    norm_cast
  rw [orbit_eq h, skip (prints_lift (imod_pos (by omega) ha)), skip (prints_lift (imod_pos (by omega) h0)), e, zero_add, pow_one]
  rfl

/-- C104, fp_orbit, for `a` relatively prime to the modulus and not negative: the products of the starting point with the powers of `a`, from the
first to the one that is 1. -/
theorem C104_orbit {y y0 : List Char} {a : Int} (hx : IsInt x n) (hy : IsInt y a) (ha : 0 ≤ a) (hu : IsUnit (a : ZMod n)) :
    Prints (fp_orbit [x, y]) ((List.range (orderOf (a : ZMod n))).flatMap fun i => orbitLine 1 ((a : ZMod n) ^ (i + 1))) () ∧
    (IsInt y0 a0 → Prints (fp_orbit [x, y, y0]) ((List.range (orderOf (a : ZMod n))).flatMap fun i => orbitLine a0 ((a : ZMod n) ^ (i + 1))) ()) := by
  have : NeZero n := ⟨by omega⟩
  have hpos : 0 < orderOf (a : ZMod n) := by
    obtain ⟨u, hu⟩ := hu
    rw [← hu, orderOf_units]
    exact orderOf_pos u
  have hodd : ¬ (a % 2 = 0 ∧ (n : Int) % 2 = 0) := by
    rintro ⟨h1, h2⟩
    obtain ⟨k, rfl⟩ := Int.eq_ofNat_of_zero_le ha
    rw [Int.cast_natCast, ZMod.isUnit_iff_coprime] at hu
    have := Nat.dvd_gcd (show 2 ∣ k by omega) (show 2 ∣ n by omega)
    rw [hu] at this
    omega
  have hle : orderOf (a : ZMod n) ≤ n := by
    obtain ⟨u, hu⟩ := hu
    rw [← hu, orderOf_units]
    refine (orderOf_le_card).trans ?_
    rw [Nat.card_eq_fintype_card, ZMod.card_units_eq_totient]
    exact Nat.totient_le n
  have key : ∀ a0, InInt a0 → Prints (orbit n a a0) ((List.range (orderOf (a : ZMod n))).flatMap fun i => orbitLine a0 ((a : ZMod n) ^ (i + 1))) () := by
    intro a0 h0
    rw [orbit_start hn2 hn hy.1 ha h0 hodd]
    refine (orbit_prints hn2 hn _ hu (orderOf (a : ZMod n) - 1) 0 (n + 2) (by omega) (by omega)).of_eq ?_
    rw [Nat.sub_add_cancel hpos]
    refine List.flatMap_congr fun i _ => ?_
    rw [show 0 + 1 + i = i + 1 by omega]
  refine ⟨?_, fun h0 => ?_⟩
  · exact (intArg_prints hx).then ((intArg_prints hy).then (key 1 (by decide)))
  · exact (intArg_prints hx).then ((intArg_prints hy).then ((intArg_prints h0).then (key a0 h0.1)))

/-- C104: if `a` is not relatively prime to the modulus the program should say so at once.  It does only if both are even, since `gcd` is that of
polynomials over F2, and numbers become constants; otherwise n + 1 lines are printed first. -/
theorem C104_violated_orbit_coprime {y : List Char} {a : Int} (hx : IsInt x n) (hy : IsInt y a) (ha : 0 ≤ a) (hu : ¬ IsUnit (a : ZMod n)) :
    (a % 2 = 0 ∧ (n : Int) % 2 = 0 → Exits (fp_orbit [x, y]) []) ∧
    (¬ (a % 2 = 0 ∧ (n : Int) % 2 = 0) →
      Exits (fp_orbit [x, y]) ((List.range (n + 1)).flatMap fun i => orbitLine 1 ((a : ZMod n) ^ (i + 1)))) := by
  refine ⟨fun h => (intArg_prints hx).then_exits ((intArg_prints hy).then_exits (orbit_even h)), fun h => ?_⟩
  refine (intArg_prints hx).then_exits ((intArg_prints hy).then_exits ?_)
  rw [orbit_start hn2 hn hy.1 ha (by decide) h]
  refine (orbit_exits hn2 hn _ hu n 0 (n + 2) (by omega) (by omega)).of_eq ?_
  refine List.flatMap_congr fun i _ => ?_
  rw [show 0 + 1 + i = i + 1 by omega]

/-- C104: a negative number congruent to 1 has an orbit of two lines instead of one, the first negative. -/
theorem C104_violated_orbit_negative {y : List Char} {a : Int} (hx : IsInt x n) (hy : IsInt y a) (ha : a < 0) (h1 : (n : Int) ∣ a - 1) :
    Prints (fp_orbit [x, y]) (showInt (1 - n) ++ "\n1\n".toList) () := by
  obtain ⟨c, hc⟩ := h1
  have hodd : ¬ (a % 2 = 0 ∧ (n : Int) % 2 = 0) := by
    rintro ⟨h1, h2⟩
    have h3 : (2 : Int) ∣ n * c := Dvd.dvd.mul_right (by omega) _
    omega
  have e1 : a.tmod n = 1 - n := by
    have h2 : (-a).tmod n = n - 1 := by
      rw [Int.tmod_eq_emod_of_nonneg (by omega), show -a = (n - 1 : Int) + n * (-c - 1) by linear_combination -hc, Int.add_mul_emod_self_left,
        Int.emod_eq_of_lt (by omega) (by omega)]
    rw [Int.neg_tmod] at h2
    omega
  have e2 : (1 : Int).tmod n = 1 := by
    rw [Int.tmod_eq_emod_of_nonneg (by omega), Int.emod_eq_of_lt (by omega) (by omega)]
  have e3 : ((1 - n : Int) * (1 - n)).tmod n = 1 := by
    rw [Int.tmod_eq_emod_of_nonneg (mul_self_nonneg _), show (1 - n : Int) * (1 - n) = 1 + n * (n - 2) by ring, Int.add_mul_emod_self_left,
      Int.emod_eq_of_lt (by omega) (by omega)]
  have e4 : ((1 - n : Int) * 1).tmod n = 1 - n := by
    have h2 : (n - 1 : Int).tmod n = n - 1 := by rw [Int.tmod_eq_emod_of_nonneg (by omega), Int.emod_eq_of_lt (by omega) (by omega)]
    rw [mul_one, show (1 - n : Int) = -(n - 1) by ring, Int.neg_tmod, h2]
  have hb := prod_bound hn2 hn (b := 1 - n) (c := 1 - n) (by omega) (by omega)
  refine (intArg_prints hx).then ((intArg_prints hy).then ?_)
  rw [orbit_eq hodd, skip (prints_lift (imod_pos (by omega) hy.1)), skip (prints_lift (imod_pos (by omega) (by decide))), e1, e2,
    show ((n : Int).toNat + 2) = n + 1 + 1 from rfl]
  have s1 : imul (1 - n) 1 = ok ((1 - (n : Int)) * 1) := chk_ok (by unfold InInt; omega)
  have s2 : imod ((1 - n) * 1) n = ok (1 - n : Int) := by rw [imod_pos (by omega) (by unfold InInt; omega), e4]
  have s3 : imul (1 - n) (1 - n) = ok ((1 - (n : Int)) * (1 - n)) := chk_ok hb
  have s4 : imod ((1 - n) * (1 - n)) n = ok (1 : Int) := by rw [imod_pos (by omega) hb, e3]
  have s5 : imod ((1 : Int) * 1) n = ok (1 : Int) := by rw [imod_pos (by omega) (by decide), mul_one, e2]
  rw [orbitLoop, skip (prints_lift s1), skip (prints_lift s2)]
  refine ((outLine_prints (showInt (1 - n))).bind (s := ['1', '\n']) ?_).of_eq ?_
  · rw [if_neg (by omega), skip (prints_lift (show iadd 0 1 = ok 1 from rfl)), if_neg (by omega), skip (prints_lift s3), skip (prints_lift s4)]
    rw [orbitLoop, skip (prints_lift (show imul 1 1 = ok ((1 : Int) * 1) from rfl)), skip (prints_lift s5), if_pos rfl]
    exact ((outLine_prints (showInt 1)).bind (prints_pure ())).of_eq (by decide +kernel)
  · simp only [List.append_assoc]
    rfl

end

/-- C104: modulo 1 the orbit of 0 is not found: two lines and status 1. -/
theorem C104_violated_orbit_one {y : List Char} {a : Int} (hx : IsInt x 1) (hy : IsInt y a) : Exits (fp_orbit [x, y]) "0\n0\n".toList := by
  refine (intArg_prints hx).then_exits ((intArg_prints hy).then_exits ?_)
  rw [orbit_eq (by omega), skip (prints_lift (imod_pos (by omega) hy.1)), Int.tmod_one]
  show Cmd.run _ = _
  decide +kernel

/-- C104: beyond 46341 the squares of residues do not fit an `int`: undefined behaviour. -/
theorem C104_violated_orbit_overflow {y : List Char} (h1 : 46342 ≤ n) (hx : IsInt x n) (hy : IsInt y (n - 1 : Int)) : IsUb (fp_orbit [x, y]) := by
  have hn : n ≤ 2147483647 := by have := hx.1; unfold InInt at this; omega
  have e0 : ∀ b : Int, 0 ≤ b → b < n → b.tmod n = b := fun b h h' => by
    rw [Int.tmod_eq_emod_of_nonneg h, Int.emod_eq_of_lt h h']
  show IsUb (intArg x >>= fun p => _)
  rw [skip (intArg_prints hx), skip (intArg_prints hy), orbit_eq (by omega), skip (prints_lift (imod_pos (by omega) hy.1)),
    skip (prints_lift (imod_pos (by omega) (by decide))), e0 _ (by omega) (by omega), e0 _ (by omega) (by omega),
    show ((n : Int).toNat + 2) = n + 1 + 1 from rfl]
  have s1 : imul (n - 1 : Int) 1 = ok ((n - 1 : Int) * 1) := chk_ok (by unfold InInt; omega)
  have s2 : imod ((n - 1 : Int) * 1) n = ok (n - 1 : Int) := by rw [imod_pos (by omega) (by unfold InInt; omega), mul_one, e0 _ (by omega) (by omega)]
  have s3 : imul (n - 1 : Int) (n - 1) = ub := by
    refine chk_ub ?_
    have : (46341 : Int) * 46341 ≤ (n - 1) * (n - 1) := mul_le_mul (by omega) (by omega) (by omega) (by omega)
    unfold InInt
    omega
  rw [orbitLoop, skip (prints_lift s1), skip (prints_lift s2)]
  refine (outLine_prints _).bind_ub ?_
  rw [if_neg (by omega), skip (prints_lift (show iadd 0 1 = ok 1 from rfl)), if_neg (by omega)]
  exact IsUb.bind (ub_lift s3)

example : (fp_orbit ["7".toList, "2".toList, "3".toList]).run = ok ("6\n5\n3\n".toList, .val ()) := by decide +kernel
example : (fp_orbit ["9".toList, "3".toList]).run = ok ("3\n0\n0\n0\n0\n0\n0\n0\n0\n0\n".toList, .exit1) := by decide +kernel
example : (fp_orbit ["3".toList, "-2".toList]).run = ok ("-2\n1\n".toList, .val ()) := by decide +kernel

end Spffl.Props.Cmd104
