import Verif.Model.CmdRandom
import Verif.Props.CmdRest
import Verif.Props.CmdF2Res
import Verif.Props.PolyRatText
import Verif.Props.Random

/-!
# C111: the commands that print random elements and random matrices

For every source of random words.
-/

namespace Spffl.Props.Cmd111
open Res Scan Polynomial Spffl.Cmd Spffl.Random
open F2P (Canon toPoly)
open CPoly (PRep)
open PText93 (fpOut FpDenotes)
open Cmd101 (IsHex hex)
open Cmd103 (f2nOut padText F2nText)
open Cmd106 (fpText nText)

/-! ### What is printed -/

/-- `n` lines. -/
def lines (n : ℕ) (txt : ℕ → List Char) : List Char := (List.range n).flatMap fun k => txt k ++ ['\n']

/-- Rows of `nc` texts each, which are numbered from the first row to the last. -/
def grid (nr nc : ℕ) (txt : ℕ → List Char) : List Char :=
  (List.range nr).flatMap fun i => List.intercalate [' '] ((List.range nc).map fun j => txt (i * nc + j)) ++ ['\n']

/-- No argument for the number of lines, or one. -/
def CountArgs (r : List (List Char)) (n : ℕ) : Prop := (r = [] ∧ n = 1) ∨ ∃ y c, r = [y] ∧ IsInt y c ∧ n = c.toNat

/-- Anything else than at most one integer: status 1 and nothing printed. -/
def CountUsage (cmd : List (List Char) → Cmd Unit) : Prop :=
  (∀ y, NotInt y → Exits (cmd [y]) []) ∧ ∀ a b r, Exits (cmd (a :: b :: r)) []

/-- One line for each number below the count, none if that is negative. -/
def Draws (cmd : List (List Char) → Cmd Unit) (txt : ℕ → List Char) : Prop :=
  (∀ r n, CountArgs r n → Prints (cmd r) (lines n txt) ()) ∧ CountUsage cmd

/-- An exception before anything is printed, unless nothing is to be drawn. -/
def Refuses (cmd : List (List Char) → Cmd Unit) : Prop :=
  (∀ r n, CountArgs r n → (0 < n → ThrowsC (cmd r) []) ∧ (n = 0 → Prints (cmd r) [] ())) ∧ CountUsage cmd

/-- Anything else than two integers: status 1 and nothing printed. -/
def MatUsage (cmd : List (List Char) → Cmd Unit) : Prop :=
  (∀ x y, NotInt x → Exits (cmd [x, y]) []) ∧ (∀ x y n, IsInt x n → NotInt y → Exits (cmd [x, y]) []) ∧
    ∀ r, r.length ≠ 2 → Exits (cmd r) []

/-- The matrix, and `e`; an exception before anything is printed if a size is not positive. -/
def DrawsMat (cmd : List (List Char) → Cmd Unit) (txt : ℕ → List Char) (e : List Char) : Prop :=
  (∀ x y nr nc, IsInt x nr → IsInt y nc → (0 < nr → 0 < nc → Prints (cmd [x, y]) (grid nr.toNat nc.toNat txt ++ e) ()) ∧
    (nr ≤ 0 ∨ nc ≤ 0 → ThrowsC (cmd [x, y]) [])) ∧ MatUsage cmd

def RefusesMat (cmd : List (List Char) → Cmd Unit) : Prop :=
  (∀ x y nr nc, IsInt x nr → IsInt y nc → ThrowsC (cmd [x, y]) []) ∧ MatUsage cmd

/-! ### The loops -/

section
variable {α : Type} {draw : ℕ → Res (α × ℕ)} {sh : α → Res (List Char)} {w : ℕ} {txt : ℕ → List Char}

theorem flatMap_succ {β : Type} (n : ℕ) (f : ℕ → List β) : (List.range (n + 1)).flatMap f = f 0 ++ (List.range n).flatMap fun k => f (k + 1) := by
  rw [List.range_succ_eq_map, List.flatMap_cons, List.flatMap_map]

theorem randLines_prints (H : ∀ pos, ∃ a, draw pos = ok (a, pos + w) ∧ sh a = ok (txt pos)) : ∀ n pos,
    Prints (randLines draw sh n pos) (lines n fun k => txt (pos + k * w)) ()
  | 0, _ => prints_pure ()
  | n + 1, pos => by
    obtain ⟨a, h1, h2⟩ := H pos
    refine ((prints_lift h1).then ((putLine_prints h2).bind (randLines_prints H n (pos + w)))).of_eq ?_
    unfold lines
    rw [flatMap_succ]
    simp only [Nat.zero_mul, Nat.add_zero]
    congr 1
    refine List.flatMap_congr fun k _ => ?_
    rw [show pos + w + k * w = pos + (k + 1) * w by ring]

theorem count_ok {r : List (List Char)} {n : ℕ} (h : CountArgs r n) :
    ∃ c : Int, Prints (optArg 1 r[0]?) [] c ∧ n = c.toNat := by
  rcases h with ⟨rfl, rfl⟩ | ⟨y, c, rfl, h, rfl⟩
  · exact ⟨1, prints_pure _, rfl⟩
  · exact ⟨c, intArg_prints h, rfl⟩

theorem CountArgs.len {r : List (List Char)} {n : ℕ} (h : CountArgs r n) : ¬ 1 < r.length := by
  rcases h with ⟨rfl, _⟩ | ⟨y, c, rfl, _⟩ <;> simp

/-- A command that reads its parameters and then the count. -/
theorem draws (H : ∀ pos, ∃ a, draw pos = ok (a, pos + w) ∧ sh a = ok (txt pos)) {cmd : List (List Char) → Cmd Unit}
    (h : ∀ r, ¬ 1 < r.length → cmd r = randCount draw sh r[0]?) (h' : ∀ a b r, Exits (cmd (a :: b :: r)) []) :
    Draws cmd fun k => txt (k * w) := by
  refine ⟨fun r n hr => ?_, fun y hy => ?_, h'⟩
  · obtain ⟨c, h1, rfl⟩ := count_ok hr
    rw [h r hr.len]
    refine (h1.then (randLines_prints H _ 0)).of_eq ?_
    simp only [Nat.zero_add]
  · rw [h [y] (by simp)]
    exact (intArg_exits hy).bind

theorem refuses (H : draw 0 = .throw) {cmd : List (List Char) → Cmd Unit}
    (h : ∀ r, ¬ 1 < r.length → cmd r = randCount draw sh r[0]?) (h' : ∀ a b r, Exits (cmd (a :: b :: r)) []) : Refuses cmd := by
  refine ⟨fun r n hr => ?_, fun y hy => ?_, h'⟩
  · obtain ⟨c, h1, rfl⟩ := count_ok hr
    rw [h r hr.len]
    refine ⟨fun hn => h1.then_throws ?_, fun hn => h1.then ?_⟩
    · obtain ⟨k, hk⟩ := Nat.exists_eq_succ_of_ne_zero hn.ne'
      rw [hk]
      exact (throws_lift H).bind
    · rw [hn]
      exact prints_pure ()
  · rw [h [y] (by simp)]
    exact (intArg_exits hy).bind

variable {E : VText.EltIO α}

theorem drawRow_ok (H : ∀ pos, ∃ a, draw pos = ok (a, pos + w) ∧ E.print a = ok (txt pos)) : ∀ n pos, ∃ l,
    drawRow draw n pos = ok (l, pos + n * w) ∧ VText.each E.print l = ok ((List.range n).map fun k => txt (pos + k * w))
  | 0, pos => ⟨[], by simp [drawRow], rfl⟩
  | n + 1, pos => by
    obtain ⟨a, h1, h2⟩ := H pos
    obtain ⟨l, h3, h4⟩ := drawRow_ok H n (pos + w)
    refine ⟨a :: l, ?_, ?_⟩
    · unfold drawRow
      rw [h1, ok_bind, h3, ok_bind, show pos + w + n * w = pos + (n + 1) * w by ring]
    · unfold VText.each
      rw [h2, ok_bind, h4, ok_bind, List.range_succ_eq_map, List.map_cons, List.map_map]
      simp only [Nat.zero_mul, Nat.add_zero]
      congr 2
      refine List.map_congr_left fun k _ => ?_
      show _ = txt (pos + (k + 1) * w)
      rw [show pos + w + k * w = pos + (k + 1) * w by ring]

theorem drawRows_ok (H : ∀ pos, ∃ a, draw pos = ok (a, pos + w) ∧ E.print a = ok (txt pos)) (nc : ℕ) : ∀ n pos, ∃ l,
    drawRows draw nc n pos = ok (l, pos + n * (nc * w)) ∧ l.length = n ∧
      VText.each (VText.showVec E) l = ok ((List.range n).map fun i => List.intercalate [' '] ((List.range nc).map fun j => txt (pos + (i * nc + j) * w)))
  | 0, pos => ⟨[], by simp [drawRows], rfl, rfl⟩
  | n + 1, pos => by
    obtain ⟨a, h1, h2⟩ := drawRow_ok H nc pos
    obtain ⟨l, h3, hl, h4⟩ := drawRows_ok H nc n (pos + nc * w)
    refine ⟨a :: l, ?_, by rw [List.length_cons, hl], ?_⟩
    · unfold drawRows
      rw [h1, ok_bind, h3, ok_bind, show pos + nc * w + n * (nc * w) = pos + (n + 1) * (nc * w) by ring]
    · unfold VText.each VText.showVec
      rw [h2, ok_bind, ok_bind]
      show (VText.each (VText.showVec E) l >>= _) = _
      rw [h4, ok_bind, List.range_succ_eq_map, List.map_cons, List.map_map]
      simp only [Nat.zero_mul, Nat.zero_add]
      congr 2
      refine List.map_congr_left fun i _ => ?_
      show _ = List.intercalate [' '] ((List.range nc).map fun j => txt (pos + ((i + 1) * nc + j) * w))
      congr 1
      refine List.map_congr_left fun j _ => ?_
      rw [show pos + nc * w + (i * nc + j) * w = pos + ((i + 1) * nc + j) * w by ring]

theorem mat_usage {cmd : List (List Char) → Cmd Unit} {e : Cmd Unit} (h : ∀ x y, cmd [x, y] = randMat draw E x y >>= fun _ => e)
    (h' : ∀ r, r.length ≠ 2 → Exits (cmd r) []) : MatUsage cmd := by
  refine ⟨fun x y hx => ?_, fun x y n hx hy => ?_, h'⟩
  · rw [h]
    exact ((intArg_exits hx).bind).bind
  · rw [h]
    exact ((intArg_prints hx).then_exits (intArg_exits hy).bind).bind

theorem draws_mat (H : ∀ pos, ∃ a, draw pos = ok (a, pos + w) ∧ E.print a = ok (txt pos)) {cmd : List (List Char) → Cmd Unit} {e : Cmd Unit}
    {t : List Char} (he : Prints e t ()) (h : ∀ x y, cmd [x, y] = randMat draw E x y >>= fun _ => e)
    (h' : ∀ r, r.length ≠ 2 → Exits (cmd r) []) : DrawsMat cmd (fun k => txt (k * w)) t := by
  refine ⟨fun x y nr nc hx hy => ⟨fun h1 h2 => ?_, fun h1 => ?_⟩, mat_usage h h'⟩
  · obtain ⟨l, h3, hl, h4⟩ := drawRows_ok H nc.toNat nr.toNat 0
    rw [h]
    refine Prints.bind (a := ()) ?_ he
    refine (intArg_prints hx).then ((intArg_prints hy).then ?_)
    rw [if_neg (by omega)]
    refine (prints_lift h3).then (put_prints ?_)
    unfold VText.showMat
    dsimp only
    rw [List.take_of_length_le hl.le, h4, ok_bind]
    unfold grid
    simp only [Nat.zero_add, List.map_map, List.flatMap_def]
    rfl
  · rw [h]
    refine ((intArg_prints hx).then_throws ((intArg_prints hy).then_throws ?_)).bind
    rw [if_pos h1]
    exact throws_lift rfl

theorem refuses_mat (H : draw 0 = .throw) {cmd : List (List Char) → Cmd Unit} {e : Cmd Unit}
    (h : ∀ x y, cmd [x, y] = randMat draw E x y >>= fun _ => e)
    (h' : ∀ r, r.length ≠ 2 → Exits (cmd r) []) : RefusesMat cmd := by
  refine ⟨fun x y nr nc hx hy => ?_, mat_usage h h'⟩
  rw [h]
  refine ((intArg_prints hx).then_throws ((intArg_prints hy).then_throws ?_)).bind
  split
  · exact throws_lift rfl
  · rename_i hn
    obtain ⟨i, hi⟩ := Nat.exists_eq_succ_of_ne_zero (n := nr.toNat) (by omega)
    obtain ⟨j, hj⟩ := Nat.exists_eq_succ_of_ne_zero (n := nc.toNat) (by omega)
    refine (throws_lift ?_).bind
    rw [hi, hj]
    unfold drawRows drawRow
    rw [H]
    rfl

end

/-! ### The elements drawn -/

/-- The polynomial of degree `d` over F2 with the bits 17 of the next `d` words as its other coefficients, the highest first. -/
noncomputable def f2At (src : ℕ → BitVec 32) (d pos : ℕ) : (ZMod 2)[X] :=
  X ^ d + ∑ i ∈ Finset.range d, C (if (src (pos + (d - 1 - i))).getLsbD 17 then 1 else 0) * X ^ i

/-- The polynomial of degree `d` whose coefficients are `v` at every `k`-th position, the highest first, where that is not zero. -/
noncomputable def polyAt {R : Type} [CommRing R] (v : ℕ → R) (k d pos : ℕ) : R[X] := by
  classical exact C (if v pos = 0 then 1 else v pos) * X ^ d + ∑ i ∈ Finset.range d, C (v (pos + (d - i) * k)) * X ^ i

/-- … over Fp: the words modulo p, -/
noncomputable def fpAt (src : ℕ → BitVec 32) (p d pos : ℕ) : (ZMod p)[X] := polyAt (fun k => ((src k).toInt : ZMod p)) 1 d pos

/-- … over F2[x]/(m): the residues of polynomials of the degree of m. -/
noncomputable def f2nAt (src : ℕ → BitVec 32) (m : (ZMod 2)[X]) (d pos : ℕ) : (AdjoinRoot m)[X] :=
  polyAt (fun k => AdjoinRoot.mk m (f2At src m.natDegree k)) m.natDegree d pos

theorem polyAt_coeff {R : Type} [CommRing R] (v : ℕ → R) (k d pos t : ℕ) :
    (polyAt v k d pos).coeff t = if t ≤ d then coefOf v k d pos t else 0 := by
  classical
  unfold polyAt coefOf fix
  rw [coeff_add, coeff_C_mul, coeff_X_pow, finsetSum_coeff]
  simp only [coeff_C_mul, coeff_X_pow, mul_ite, mul_one, mul_zero]
  rw [Finset.sum_ite_eq]
  simp only [Finset.mem_range]
  by_cases e : t = d
  · subst e; simp
  · by_cases h : t < d
    · simp [e, h, h.le]
    · rw [if_neg e, if_neg h, if_neg (by omega), add_zero]

theorem polyAt_eq {R : Type} [CommRing R] {v : ℕ → R} {k d pos : ℕ} {F : R[X]} (h : F.natDegree = d)
    (h' : ∀ i, i ≤ d → F.coeff i = coefOf v k d pos i) : F = polyAt v k d pos := by
  ext t
  rw [polyAt_coeff]
  split
  · exact h' t ‹_›
  · exact coeff_eq_zero_of_natDegree_lt (by omega)

variable (src : ℕ → BitVec 32) {x y : List Char}

/-! ### F2 and Fp -/

theorem and_one (w : BitVec 32) : (w &&& 1#32).toInt = if w.getLsbD 0 then 1 else 0 := by
  rw [BitVec.and_one_eq_setWidth_ofBool_getLsbD]
  cases w.getLsbD 0 <;> decide

/-- C111, f2_random: the last bits of the words. -/
theorem C111_f2 : Draws (f2_random src) fun k => if (src k).getLsbD 0 then ['1'] else ['0'] := by
  have h := draws (cmd := f2_random src) (draw := f2_draw src) (sh := fun n => ok (showInt n)) (w := 1)
    (txt := fun k => if (src k).getLsbD 0 then ['1'] else ['0']) (fun pos => ⟨_, rfl, ?_⟩) (fun r hr => ?_) fun a b r => exits_exit1
  · simpa using h
  · rw [and_one]
    cases (src pos).getLsbD 0 <;> decide +kernel
  · rcases r with _ | ⟨y, _ | ⟨z, r⟩⟩
    · rfl
    · rfl
    · simp at hr

/-- C111, f2_mat_random. -/
theorem C111_f2_mat (r0 : ℕ) : DrawsMat (f2_mat_random src r0) (fun k => if (src k).getLsbD 0 then ['1'] else ['0']) [] := by
  have h := draws_mat (cmd := f2_mat_random src r0) (draw := bit_draw src) (E := Expr.bitIO r0) (w := 1)
    (txt := fun k => if (src k).getLsbD 0 then ['1'] else ['0']) (fun pos => ⟨_, rfl, ?_⟩) (prints_pure ()) (fun x y => ?_) fun r hr => ?_
  · simpa using h
  · rw [and_one]
    cases (src pos).getLsbD 0 <;> rfl
  · exact (bind_pure_unit).symm
  · rcases r with _ | ⟨y, _ | ⟨z, _ | ⟨u, r⟩⟩⟩
    · exact exits_exit1
    · exact exits_exit1
    · simp at hr
    · exact exits_exit1

theorem fp_draw {m : Int} (h2 : 2 ≤ m) (hm : m ≤ 2147483647) (pos : ℕ) :
    ∃ a, intmod_random src m pos = ok (a, pos + 1) ∧ showMod a = ok (showInt ((src pos).toInt % m)) := by
  refine ⟨_, (C68_intmod src pos m hm).2 h2, ?_⟩
  unfold showMod IntMod.check_modulus
  rw [if_neg (by dsimp only; omega)]
  rfl

theorem fp_eq {m : Int} (hx : IsInt x m) (r : List (List Char)) (hr : ¬ 1 < r.length) :
    fp_random src (x :: r) = randCount (intmod_random src m) showMod r[0]? := by
  show (if 1 < r.length then exit1 else _) = _
  rw [if_neg hr]
  exact skip (intArg_prints hx) _

/-- C111, fp_random: the words modulo m, as numbers from 0 to m − 1; an exception for m < 2. -/
theorem C111_fp {m : Int} (hx : IsInt x m) :
    (2 ≤ m → Draws (fun r => fp_random src (x :: r)) fun k => showInt ((src k).toInt % m)) ∧
    (m < 2 → Refuses fun r => fp_random src (x :: r)) := by
  have hm := hx.1.2
  refine ⟨fun h2 => ?_, fun h2 => refuses ((C68_intmod src 0 m hm).1 h2) (fp_eq src hx) fun a b r => exits_exit1⟩
  simpa using draws (fp_draw src h2 hm) (fp_eq src hx) fun a b r => exits_exit1

theorem fp_mat_eq {m : Int} (hx : IsInt x m) (y z : List Char) :
    fp_mat_random src [x, y, z] = randMat (intmod_random src m) VText.modIO y z >>= fun _ => pure () := by
  rw [show (randMat (intmod_random src m) VText.modIO y z >>= fun _ => pure ()) = randMat (intmod_random src m) VText.modIO y z from bind_pure_unit]
  exact skip (intArg_prints hx) _

theorem fp_mat_len (r : List (List Char)) (hr : r.length ≠ 2) : Exits (fp_mat_random src (x :: r)) [] := by
  rcases r with _ | ⟨y, _ | ⟨z, _ | ⟨u, r⟩⟩⟩
  · exact exits_exit1
  · exact exits_exit1
  · simp at hr
  · exact exits_exit1

/-- C111, fp_mat_random. -/
theorem C111_fp_mat {m : Int} (hx : IsInt x m) :
    (2 ≤ m → DrawsMat (fun r => fp_mat_random src (x :: r)) (fun k => showInt ((src k).toInt % m)) []) ∧
    (m < 2 → RefusesMat fun r => fp_mat_random src (x :: r)) := by
  have hm := hx.1.2
  refine ⟨fun h2 => ?_, fun h2 => refuses_mat ((C68_intmod src 0 m hm).1 h2) (fp_mat_eq src hx) (fp_mat_len src)⟩
  simpa using draws_mat (E := VText.modIO) (fp_draw src h2 hm) (prints_pure ()) (fp_mat_eq src hx) (fp_mat_len src)

/-! ### Polynomials over F2 -/

theorem f2_poly_draw (d pos : ℕ) : ∃ a, f2_poly_random src d pos = ok (a, pos + d) ∧ F2P.PRep a (f2At src d pos) := by
  obtain ⟨⟨r, q⟩, e, h1, h2, h3⟩ := f2_poly_random_ok src d pos
  simp only at h1 h2 h3
  subst h3
  exact ⟨r, e, h1, h2⟩

theorem f2_p_eq {d : Int} (hx : IsInt x d) (r : List (List Char)) (hr : ¬ 1 < r.length) :
    f2_p_random src (x :: r) = randCount (f2_poly_random src d) F2P.print r[0]? := by
  show (if 1 < r.length then exit1 else _) = _
  rw [if_neg hr]
  exact skip (intArg_prints hx) _

/-- C111, f2_p_random: polynomials of degree exactly d, each with fresh bits; an exception for d < 0. -/
theorem C111_f2_p {d : Int} (hx : IsInt x d) :
    (∀ n : ℕ, d = n → Draws (fun r => f2_p_random src (x :: r)) fun k => hex (f2At src n (k * n))) ∧
    (d < 0 → Refuses fun r => f2_p_random src (x :: r)) := by
  refine ⟨?_, fun h => refuses (C68_f2_poly_negative src 0 d h) (f2_p_eq src hx) fun a b r => exits_exit1⟩
  rintro n rfl
  refine draws (txt := fun k => hex (f2At src n k)) (fun pos => ?_) (f2_p_eq src hx) fun a b r => exits_exit1
  obtain ⟨a, h1, h2⟩ := f2_poly_draw src n pos
  refine ⟨a, h1, ?_⟩
  rw [← h2.2]
  exact F2P.print_ok h2.1.ne_nil

variable {m : (ZMod 2)[X]}

theorem f2_pm_eq {mm : F2P} (hp : Prints (f2Arg x) [] mm) (r : List (List Char)) (hr : ¬ 1 < r.length) :
    f2_pm_random src (x :: r) = randCount (f2_polymod_random src mm) PText.f2ModShow r[0]? := by
  show (if 1 < r.length then exit1 else _) = _
  rw [if_neg hr]
  exact skip hp _

theorem f2_pm_draw {mm : F2P} (hc : Canon mm) (ht : toPoly mm = m) (hd : 1 ≤ m.natDegree) (pos : ℕ) :
    ∃ a, f2_polymod_random src mm pos = ok (a, pos + m.natDegree) ∧
      PText.f2ModShow a = ok (padText (AdjoinRoot.mk m (f2At src m.natDegree pos))) := by
  subst ht
  obtain ⟨⟨r, q⟩, e, h1, h2⟩ := f2_polymod_random_ok src hc hd pos
  simp only at h1 h2
  subst h2
  exact ⟨r, e, Cmd105.res_text (by omega) h1⟩

/-- C111, f2_pm_random: residues, each of a polynomial of the degree of m; an exception if m is constant. -/
theorem C111_f2_pm (hx : IsHex x m) :
    (0 < m.natDegree → Draws (fun r => f2_pm_random src (x :: r)) fun k => padText (AdjoinRoot.mk m (f2At src m.natDegree (k * m.natDegree)))) ∧
    (m.natDegree = 0 → Refuses fun r => f2_pm_random src (x :: r)) := by
  obtain ⟨mm, hp, hc, ht⟩ := Cmd103.par hx
  refine ⟨fun h => draws (f2_pm_draw src hc ht h) (f2_pm_eq src hp) fun a b r => exits_exit1, fun h =>
    refuses (C68_f2_polymod_constant src 0 mm (by rw [ht, h])) (f2_pm_eq src hp) fun a b r => exits_exit1⟩

theorem f2_pm_mat_eq {mm : F2P} (hp : Prints (f2Arg x) [] mm) (y z : List Char) :
    f2_pm_mat_random src [x, y, z] = randMat (f2_polymod_random src mm) VText.f2ModIO y z >>= fun _ => pure () := by
  rw [show (randMat (f2_polymod_random src mm) VText.f2ModIO y z >>= fun _ => pure ()) = randMat (f2_polymod_random src mm) VText.f2ModIO y z
    from bind_pure_unit]
  exact skip hp _

theorem f2_pm_mat_len (r : List (List Char)) (hr : r.length ≠ 2) : Exits (f2_pm_mat_random src (x :: r)) [] := by
  rcases r with _ | ⟨y, _ | ⟨z, _ | ⟨u, r⟩⟩⟩
  · exact exits_exit1
  · exact exits_exit1
  · simp at hr
  · exact exits_exit1

/-- C111, f2_pm_mat_random. -/
theorem C111_f2_pm_mat (hx : IsHex x m) :
    (0 < m.natDegree →
      DrawsMat (fun r => f2_pm_mat_random src (x :: r)) (fun k => padText (AdjoinRoot.mk m (f2At src m.natDegree (k * m.natDegree)))) []) ∧
    (m.natDegree = 0 → RefusesMat fun r => f2_pm_mat_random src (x :: r)) := by
  obtain ⟨mm, hp, hc, ht⟩ := Cmd103.par hx
  refine ⟨fun h => draws_mat (E := VText.f2ModIO) (f2_pm_draw src hc ht h) (prints_pure ()) (f2_pm_mat_eq src hp) (f2_pm_mat_len src), fun h =>
    refuses_mat (C68_f2_polymod_constant src 0 mm (by rw [ht, h])) (f2_pm_mat_eq src hp) (f2_pm_mat_len src)⟩

/-! ### Quotients of polynomials over F2 -/

/-- The text of the quotient of `N` and `D` in lowest terms. -/
def Lowest (N D : (ZMod 2)[X]) (t : List Char) : Prop :=
  ∃ n d, IsCoprime n d ∧ n * D = N * d ∧ t = hex n ++ if d = 1 then [] else '/' :: hex d

theorem f2_pr_draw (d pos : ℕ) : ∃ a t, f2_polyrat_draw src d pos = ok (a, pos + 2 * d) ∧ PRat.shown F2P.rtext a = ok t ∧
    Lowest (f2At src d pos) (f2At src d (pos + d)) t := by
  classical
  obtain ⟨a, h1, h2⟩ := f2_poly_draw src d pos
  obtain ⟨b, h3, h4⟩ := f2_poly_draw src d (pos + d)
  have hD : f2At src d (pos + d) ≠ 0 := fun h => by
    have : (f2At src d (pos + d)).coeff d = 1 := by
      show (monicOf d _).coeff d = 1
      rw [monicOf_coeff, if_pos rfl]
    rw [h, coeff_zero] at this
    exact zero_ne_one this
  have hz : F2P.eq b (F2P.ofInt 0) = ok false := by
    rw [F2P.eq_ok h4.1.ne_nil (by simp [F2P.ofInt]), h4.2, show toPoly (F2P.ofInt 0) = 0 from F2P.toPoly_zero, decide_eq_false hD]
  obtain ⟨q, e1, n, e, hq, hg⟩ := sat_false.1 (PRat.simplify_sat F2P.ratRef (a := ⟨a, b⟩) (F2P.ratRef.weak h2) (F2P.ratRef.weak h4) hD)
  refine ⟨q, hex n ++ if e = 1 then [] else '/' :: hex e, ?_, ?_, n, e, ?_, ?_, rfl⟩
  · unfold f2_polyrat_draw
    rw [h1, ok_bind]
    dsimp only
    rw [h3, ok_bind]
    dsimp only
    rw [hz, ok_bind, if_neg (by simp)]
    unfold PRat.mk2
    rw [e1, ok_bind, show pos + d + d = pos + 2 * d by ring]
  · obtain ⟨b, hb, hb'⟩ := Expr99.f2_text.isOne hq.hd
    unfold PRat.shown
    have hn : F2P.rtext.print q.numer = ok (hex n) := by rw [← hq.hn.2]; exact F2P.print_ok hq.hn.1.ne_nil
    have he : F2P.rtext.print q.denom = ok (hex e) := by rw [← hq.hd.2]; exact F2P.print_ok hq.hd.1.ne_nil
    rw [hn, ok_bind, hb, ok_bind]
    by_cases h : e = 1
    · rw [hb'.mpr h, if_neg (by simp), if_pos h, List.append_nil]
    · rw [Bool.eq_false_iff.mpr fun k => h (hb'.mp k), if_pos (by simp), he, ok_bind, if_neg h]
  · exact (EuclideanDomain.gcd_isUnit_iff.mp (by rw [hg]; exact isUnit_one)).symm
  · have := hq.val
    rw [div_eq_div_iff (PRat.phi_ne hD) (PRat.phi_ne hq.d0), ← map_mul, ← map_mul] at this
    exact (RatFunc.algebraMap_injective _ this).symm

theorem f2_pr_eq {d : Int} (hx : IsInt x d) (r : List (List Char)) (hr : ¬ 1 < r.length) :
    f2_pr_random src (x :: r) = randCount (f2_polyrat_draw src d) (PRat.shown F2P.rtext) r[0]? := by
  show (if 1 < r.length then exit1 else _) = _
  rw [if_neg hr]
  exact skip (intArg_prints hx) _

theorem f2_pr_negative {d : Int} (h : d < 0) : f2_polyrat_draw src d 0 = .throw := by
  unfold f2_polyrat_draw
  rw [C68_f2_poly_negative src 0 d h]
  rfl

/-- C111, f2_pr_random: quotients of two polynomials of degree d, in lowest terms; an exception for d < 0. -/
theorem C111_f2_pr {d : Int} (hx : IsInt x d) :
    (∀ n : ℕ, d = n → ∃ txt : ℕ → List Char, (∀ k, Lowest (f2At src n (k * (2 * n))) (f2At src n (k * (2 * n) + n)) (txt k)) ∧
      Draws (fun r => f2_pr_random src (x :: r)) txt) ∧
    (d < 0 → Refuses fun r => f2_pr_random src (x :: r)) := by
  refine ⟨?_, fun h => refuses (f2_pr_negative src h) (f2_pr_eq src hx) fun a b r => exits_exit1⟩
  rintro n rfl
  choose a t h1 h2 h3 using f2_pr_draw src n
  exact ⟨fun k => t (k * (2 * n)), fun k => h3 _, draws (fun pos => ⟨_, h1 pos, h2 pos⟩) (f2_pr_eq src hx) fun a b r => exits_exit1⟩

theorem f2_pr_mat_eq {d : Int} (hx : IsInt x d) (y z : List Char) : f2_pr_mat_random src [x, y, z] =
    randMat (f2_polyrat_draw src d) (PRat.io F2P.rops F2P.rtext) y z >>= fun _ => out ['\n'] := skip (intArg_prints hx) _

theorem f2_pr_mat_len (r : List (List Char)) (hr : r.length ≠ 2) : Exits (f2_pr_mat_random src (x :: r)) [] := by
  rcases r with _ | ⟨y, _ | ⟨z, _ | ⟨u, r⟩⟩⟩
  · exact exits_exit1
  · exact exits_exit1
  · simp at hr
  · exact exits_exit1

/-- C111, f2_pr_mat_random: there is an empty line after the matrix. -/
theorem C111_f2_pr_mat {d : Int} (hx : IsInt x d) :
    (∀ n : ℕ, d = n → ∃ txt : ℕ → List Char, (∀ k, Lowest (f2At src n (k * (2 * n))) (f2At src n (k * (2 * n) + n)) (txt k)) ∧
      DrawsMat (fun r => f2_pr_mat_random src (x :: r)) txt ['\n']) ∧
    (d < 0 → RefusesMat fun r => f2_pr_mat_random src (x :: r)) := by
  refine ⟨?_, fun h => refuses_mat (f2_pr_negative src h) (f2_pr_mat_eq src hx) (f2_pr_mat_len src)⟩
  rintro n rfl
  choose a t h1 h2 h3 using f2_pr_draw src n
  exact ⟨fun k => t (k * (2 * n)), fun k => h3 _, draws_mat (E := PRat.io F2P.rops F2P.rtext) (fun pos => ⟨_, h1 pos, h2 pos⟩) (prints_out _)
    (f2_pr_mat_eq src hx) (f2_pr_mat_len src)⟩

/-! ### Polynomials over Fp -/

theorem fp_p_eq {p d : Int} (hx : IsInt x p) (hy : IsInt y d) (r : List (List Char)) (hr : ¬ 1 < r.length) :
    fp_p_random src (x :: y :: r) = randCount (fp_poly_random src p d) PText.fpShow r[0]? := by
  show (if 1 < r.length then exit1 else _) = _
  rw [if_neg hr]
  exact (skip (intArg_prints hx) _).trans (skip (intArg_prints hy) _)

theorem fp_poly_small {p d : Int} (h : p < 2 ∨ d < 0) (hp : p ≤ 2147483647) : fp_poly_random src p d 0 = .throw := by
  unfold fp_poly_random
  by_cases hd : d < 0
  · rw [if_pos hd]
  rw [if_neg hd]
  have h2 : p < 2 := by omega
  by_cases h0 : p ≤ 0
  · unfold IntMod.mk'
    rw [if_pos h0]
    rfl
  · obtain rfl : p = 1 := by omega
    have e1 : IntMod.mk' 0 1 = ok ⟨0, 1⟩ := by decide
    have e2 : IntMod.mk' 1 1 = ok ⟨0, 1⟩ := by decide
    have e3 : CPoly.const IntMod.cops ⟨0, 1⟩ = ok ⟨0, [⟨0, 1⟩]⟩ := by decide
    rw [e1, ok_bind, e2, ok_bind]
    unfold poly_random
    rw [e3, ok_bind]
    show loopDown _ 0 (d.toNat + 1) _ = _
    show (intmod_random src 1 0 >>= _) >>= _ = _
    rfl

/-- C111, fp_p_random: polynomials of degree exactly d, for any modulus; an exception for p < 2 and for d < 0. -/
theorem C111_fp_p {p d : Int} (hx : IsInt x p) (hy : IsInt y d) :
    (∀ q n : ℕ, p = q → d = n → 2 ≤ q → Draws (fun r => fp_p_random src (x :: y :: r)) fun k => fpOut (fpAt src q n (k * (n + 1)))) ∧
    (p < 2 ∨ d < 0 → Refuses fun r => fp_p_random src (x :: y :: r)) := by
  have hm := hx.1.2
  refine ⟨?_, fun h => refuses (fp_poly_small src h hm) (fp_p_eq src hx hy) fun a b r => exits_exit1⟩
  rintro q n rfl rfl h2
  refine draws (txt := fun k => fpOut (fpAt src q n k)) (fun pos => ?_) (fp_p_eq src hx hy) fun a b r => exits_exit1
  obtain ⟨⟨a, k⟩, e, F, h1, h3, h4, h5⟩ := fp_poly_random_ok src h2 (by omega) n pos
  simp only at h1 h5
  rw [mul_one] at h5
  subst h5
  refine ⟨a, e, ?_⟩
  rw [show fpAt src q n pos = F from (polyAt_eq h3 h4).symm]
  exact PText93.C93_fp_print (by omega) h1

section
variable {p : ℕ} [hp : Fact p.Prime] {M : (ZMod p)[X]}

theorem fp_pm_draw (hb : p ≤ 46341) {mm : CPoly IntMod} (hm : PRep (IntMod.Rep p) mm M) (hd : 0 < M.natDegree) (pos : ℕ) :
    ∃ a, fp_polymod_random src mm pos = ok (a, pos + (M.natDegree + 1)) ∧
      PText.fpModShow a = ok (fpText (AdjoinRoot.mk M (fpAt src p M.natDegree pos))) := by
  obtain ⟨⟨a, k⟩, e, F, h1, h2, h3, h4⟩ := fp_polymod_random_ok src hb hm hd pos
  simp only at h3 h4
  subst h4
  refine ⟨a, e, ?_⟩
  rw [show fpAt src p M.natDegree pos = F from (polyAt_eq h1 h2).symm]
  exact Cmd106.fp_sh hb h3

theorem fp_pm_eq {mm : CPoly IntMod} (h : Prints (fpPmArg x y) [] mm) (r : List (List Char)) (hr : ¬ 1 < r.length) :
    fp_pm_random src (x :: y :: r) = randCount (fp_polymod_random src mm) PText.fpModShow r[0]? := by
  show (if 1 < r.length then exit1 else _) = _
  rw [if_neg hr]
  exact skip h _

/-- C111, fp_pm_random: residues, each of a polynomial of the degree of M; an exception if M is constant. -/
theorem C111_fp_pm_partial (hb : p ≤ 46341) (hx : IsInt x p) (hy : FpDenotes p y M) :
    (0 < M.natDegree → Draws (fun r => fp_pm_random src (x :: y :: r)) fun k =>
      fpText (AdjoinRoot.mk M (fpAt src p M.natDegree (k * (M.natDegree + 1))))) ∧
    (M.natDegree = 0 → Refuses fun r => fp_pm_random src (x :: y :: r)) := by
  obtain ⟨mm, h1, h2⟩ := Cmd106.fp_par hb hx hy
  exact ⟨fun h => draws (fp_pm_draw src hb h2 h) (fp_pm_eq src h1) fun a b r => exits_exit1, fun h =>
    refuses ((C68_fp_polymod hb src 0 mm M h2).1 h) (fp_pm_eq src h1) fun a b r => exits_exit1⟩

theorem fp_pm_mat_eq {mm : CPoly IntMod} (h : Prints (fpPmArg x y) [] mm) (z w : List Char) :
    fp_pm_mat_random src [x, y, z, w] = randMat (fp_polymod_random src mm) VText.fpModIO z w >>= fun _ => pure () := by
  rw [show (randMat (fp_polymod_random src mm) VText.fpModIO z w >>= fun _ => pure ()) = randMat (fp_polymod_random src mm) VText.fpModIO z w
    from bind_pure_unit]
  exact skip h _

theorem fp_pm_mat_len (r : List (List Char)) (hr : r.length ≠ 2) : Exits (fp_pm_mat_random src (x :: y :: r)) [] := by
  rcases r with _ | ⟨y, _ | ⟨z, _ | ⟨u, r⟩⟩⟩
  · exact exits_exit1
  · exact exits_exit1
  · simp at hr
  · exact exits_exit1

/-- C111, fp_pm_mat_random. -/
theorem C111_fp_pm_mat_partial (hb : p ≤ 46341) (hx : IsInt x p) (hy : FpDenotes p y M) :
    (0 < M.natDegree → DrawsMat (fun r => fp_pm_mat_random src (x :: y :: r))
      (fun k => fpText (AdjoinRoot.mk M (fpAt src p M.natDegree (k * (M.natDegree + 1))))) []) ∧
    (M.natDegree = 0 → RefusesMat fun r => fp_pm_mat_random src (x :: y :: r)) := by
  obtain ⟨mm, h1, h2⟩ := Cmd106.fp_par hb hx hy
  exact ⟨fun h => draws_mat (E := VText.fpModIO) (fp_pm_draw src hb h2 h) (prints_pure ()) (fp_pm_mat_eq src h1) (fp_pm_mat_len src), fun h =>
    refuses_mat ((C68_fp_polymod hb src 0 mm M h2).1 h) (fp_pm_mat_eq src h1) (fp_pm_mat_len src)⟩

end

/-! ### F2^n -/

theorem f2n_p_eq {mm : F2P} (hp : Prints (f2Arg x) [] mm) {d : Int} (hy : IsInt y d) (r : List (List Char)) (hr : ¬ 1 < r.length) :
    f2n_p_random src (x :: y :: r) = randCount (f2n_poly_random src mm d) PText.f2nShow r[0]? := by
  show (if 1 < r.length then exit1 else _) = _
  rw [if_neg hr]
  exact (skip hp _).trans (skip (intArg_prints hy) _)

/-- C111, f2n_p_random: polynomials of degree exactly d, if m is irreducible; an exception for d < 0. -/
theorem C111_f2n_p_partial [hm : Fact (Irreducible m)] {d : Int} (hx : IsHex x m) (hy : IsInt y d) :
    (∀ n : ℕ, d = n → Draws (fun r => f2n_p_random src (x :: y :: r)) fun k => f2nOut (f2nAt src m n (k * ((n + 1) * m.natDegree)))) ∧
    (d < 0 → Refuses fun r => f2n_p_random src (x :: y :: r)) := by
  obtain ⟨mm, hp, hc, ht⟩ := Cmd103.par hx
  refine ⟨?_, fun h => refuses (C68_f2n_poly_negative src 0 mm d h) (f2n_p_eq src hp hy) fun a b r => exits_exit1⟩
  rintro n rfl
  refine draws (txt := fun k => f2nOut (f2nAt src m n k)) (fun pos => ?_) (f2n_p_eq src hp hy) fun a b r => exits_exit1
  have hd := hm.out.natDegree_pos
  subst ht
  obtain ⟨⟨a, k⟩, e, F, h1, h3, h4, h5⟩ := f2n_poly_random_ok src hc hd n pos
  simp only at h1 h5
  subst h5
  refine ⟨a, e, ?_⟩
  rw [show f2nAt src _ n pos = F from (polyAt_eq h3 h4).symm]
  exact (Cmd103.tool hc rfl).sh h1

section
variable [hm : Fact (Irreducible m)] {M : (AdjoinRoot m)[X]}

theorem f2n_pm_draw {im : F2P} {om : CPoly F2Mod} (hc : Canon im) (ht : toPoly im = m) (ho : PRep (F2Mod.Rep m) om M) (hM : M ≠ 0) (pos : ℕ) :
    ∃ a, f2n_polymod_random src im om pos = ok (a, pos + (M.natDegree + 1) * m.natDegree) ∧
      PText.f2nModShow a = ok (nText (AdjoinRoot.mk M (f2nAt src m M.natDegree pos))) := by
  subst ht
  obtain ⟨⟨a, k⟩, e, F, h1, h2, h3, h4⟩ := f2n_polymod_random_ok src hc hm.out ho hM pos
  simp only at h3 h4
  subst h4
  refine ⟨a, e, ?_⟩
  rw [show f2nAt src _ M.natDegree pos = F from (polyAt_eq h1 h2).symm]
  exact Cmd106.n_sh h3

theorem n_pars (hx : IsHex x m) (hy : F2nText m y M) : ∃ im om, Prints (f2Arg x) [] im ∧ Prints (readArg (f2nTool im).read y) [] om ∧
    Canon im ∧ toPoly im = m ∧ PRep (F2Mod.Rep m) om M := by
  obtain ⟨im, h1, h2, h3⟩ := Cmd103.par hx
  obtain ⟨om, h4, h5⟩ := (Cmd103.tool h2 h3).read hy
  exact ⟨im, om, h1, readArg_prints h4, h2, h3, h5⟩

theorem f2n_pm_eq {im : F2P} {om : CPoly F2Mod} (h : Prints (f2Arg x) [] im) (h' : Prints (readArg (f2nTool im).read y) [] om)
    (r : List (List Char)) (hr : ¬ 1 < r.length) :
    f2n_pm_random src (x :: y :: r) = randCount (f2n_polymod_random src im om) PText.f2nModShow r[0]? := by
  show (if 1 < r.length then exit1 else _) = _
  rw [if_neg hr]
  exact (skip h _).trans (skip h' _)

theorem f2n_pm_zero {im : F2P} {om : CPoly F2Mod} (hc : Canon im) (ht : toPoly im = m) (ho : PRep (F2Mod.Rep m) om 0) :
    f2n_polymod_random src im om 0 = .throw := by
  subst ht
  obtain ⟨⟨a, k⟩, e, F, h1, -⟩ := f2n_poly_random_ok src hc hm.out.natDegree_pos 0 0
  unfold f2n_polymod_random
  have hd : om.degree = 0 := by have := ho.deg; simpa using this.symm
  rw [hd, show f2n_poly_random src im ((0 : ℕ) : Int) 0 = _ from e, ok_bind, pm_zero (F2Mod.cops_ref hm.out.ne_zero) h1 ho]
  rfl

/-- C111, f2n_pm_random: residues, each of a polynomial of the degree of M; an exception if M is zero. -/
theorem C111_f2n_pm_partial (hx : IsHex x m) (hy : F2nText m y M) :
    (M ≠ 0 → Draws (fun r => f2n_pm_random src (x :: y :: r)) fun k =>
      nText (AdjoinRoot.mk M (f2nAt src m M.natDegree (k * ((M.natDegree + 1) * m.natDegree))))) ∧
    (M = 0 → Refuses fun r => f2n_pm_random src (x :: y :: r)) := by
  obtain ⟨im, om, h1, h2, h3, h4, h5⟩ := n_pars hx hy
  refine ⟨fun h => draws (f2n_pm_draw src h3 h4 h5 h) (f2n_pm_eq src h1 h2) fun a b r => exits_exit1, fun h => ?_⟩
  subst h
  exact refuses (f2n_pm_zero src h3 h4 h5) (f2n_pm_eq src h1 h2) fun a b r => exits_exit1

theorem f2n_pm_mat_eq {im : F2P} {om : CPoly F2Mod} (h : Prints (f2Arg x) [] im) (h' : Prints (readArg (f2nTool im).read y) [] om)
    (z w : List Char) :
    f2n_pm_mat_random src [x, y, z, w] = randMat (f2n_polymod_random src im om) VText.f2nModIO z w >>= fun _ => out ['\n'] :=
  (skip h _).trans (skip h' _)

theorem f2n_pm_mat_len (r : List (List Char)) (hr : r.length ≠ 2) : Exits (f2n_pm_mat_random src (x :: y :: r)) [] := by
  rcases r with _ | ⟨y, _ | ⟨z, _ | ⟨u, r⟩⟩⟩
  · exact exits_exit1
  · exact exits_exit1
  · simp at hr
  · exact exits_exit1

/-- C111, f2n_pm_mat_random: there is an empty line after the matrix. -/
theorem C111_f2n_pm_mat_partial (hx : IsHex x m) (hy : F2nText m y M) :
    (M ≠ 0 → DrawsMat (fun r => f2n_pm_mat_random src (x :: y :: r))
      (fun k => nText (AdjoinRoot.mk M (f2nAt src m M.natDegree (k * ((M.natDegree + 1) * m.natDegree))))) ['\n']) ∧
    (M = 0 → RefusesMat fun r => f2n_pm_mat_random src (x :: y :: r)) := by
  obtain ⟨im, om, h1, h2, h3, h4, h5⟩ := n_pars hx hy
  refine ⟨fun h => draws_mat (E := VText.f2nModIO) (f2n_pm_draw src h3 h4 h5 h) (prints_out _) (f2n_pm_mat_eq src h1 h2) (f2n_pm_mat_len src), fun h => ?_⟩
  subst h
  exact refuses_mat (f2n_pm_zero src h3 h4 h5) (f2n_pm_mat_eq src h1 h2) (f2n_pm_mat_len src)

end

/-! ### Parameters that are missing or not read -/

/-- C111: without the parameters, or with one that is not a number or a polynomial: status 1 and nothing printed. -/
theorem C111_usage (bad : List Char) (r : List (List Char)) :
    Exits (f2_p_random src []) [] ∧ Exits (f2_pm_random src []) [] ∧ Exits (f2_pr_random src []) [] ∧ Exits (fp_random src []) [] ∧
    (∀ a, Exits (f2n_p_random src [a]) [] ∧ Exits (f2n_pm_random src [a]) [] ∧ Exits (fp_p_random src [a]) [] ∧ Exits (fp_pm_random src [a]) []) ∧
    Exits (f2_pm_mat_random src []) [] ∧ Exits (f2_pr_mat_random src []) [] ∧ Exits (fp_mat_random src []) [] ∧
    (∀ a, Exits (f2n_pm_mat_random src [a]) [] ∧ Exits (fp_pm_mat_random src [a]) []) ∧
    (NotInt bad → Exits (f2_p_random src (bad :: r)) [] ∧ Exits (f2_pr_random src (bad :: r)) [] ∧ Exits (fp_random src (bad :: r)) [] ∧
      Exits (fp_p_random src (bad :: r)) [] ∧ Exits (fp_pm_random src (bad :: r)) [] ∧ Exits (f2_pr_mat_random src (bad :: r)) [] ∧
      Exits (fp_mat_random src (bad :: r)) [] ∧ Exits (fp_pm_mat_random src (bad :: r)) []) ∧
    ((∀ f, ¬ IsHex bad f) → Exits (f2_pm_random src (bad :: r)) [] ∧ Exits (f2n_p_random src (bad :: r)) [] ∧
      Exits (f2n_pm_random src (bad :: r)) [] ∧ Exits (f2_pm_mat_random src (bad :: r)) [] ∧ Exits (f2n_pm_mat_random src (bad :: r)) []) := by
  refine ⟨exits_exit1, exits_exit1, exits_exit1, exits_exit1, fun a => ⟨exits_exit1, exits_exit1, exits_exit1, exits_exit1⟩, exits_exit1, exits_exit1,
    exits_exit1, fun a => ⟨exits_exit1, exits_exit1⟩, fun h => ?_, fun h => ?_⟩
  · have h : Exits (intArg bad) [] := intArg_exits h
    have i : ∀ {c : Cmd Unit} {q : Prop} [Decidable q], Exits c [] → Exits (if q then exit1 else c) [] := fun {c q _} hc => by
      split
      · exact exits_exit1
      · exact hc
    refine ⟨i h.bind, i h.bind, i h.bind, ?_, ?_, ?_, ?_, ?_⟩
    · rcases r with _ | ⟨y, r⟩
      · exact exits_exit1
      · exact i h.bind
    · rcases r with _ | ⟨y, r⟩
      · exact exits_exit1
      · exact i (Exits.bind h).bind
    · rcases r with _ | ⟨y, _ | ⟨z, _ | ⟨u, r⟩⟩⟩ <;> first | exact exits_exit1 | exact h.bind
    · rcases r with _ | ⟨y, _ | ⟨z, _ | ⟨u, r⟩⟩⟩ <;> first | exact exits_exit1 | exact h.bind
    · rcases r with _ | ⟨y, _ | ⟨z, _ | ⟨u, _ | ⟨v, r⟩⟩⟩⟩ <;> first | exact exits_exit1 | exact (Exits.bind h).bind
  · have h : Exits (f2Arg bad) [] := Cmd101.readArg_no h
    have i : ∀ {c : Cmd Unit} {q : Prop} [Decidable q], Exits c [] → Exits (if q then exit1 else c) [] := fun {c q _} hc => by
      split
      · exact exits_exit1
      · exact hc
    refine ⟨i h.bind, ?_, ?_, ?_, ?_⟩
    · rcases r with _ | ⟨y, r⟩
      · exact exits_exit1
      · exact i h.bind
    · rcases r with _ | ⟨y, r⟩
      · exact exits_exit1
      · exact i h.bind
    · rcases r with _ | ⟨y, _ | ⟨z, _ | ⟨u, r⟩⟩⟩ <;> first | exact exits_exit1 | exact h.bind
    · rcases r with _ | ⟨y, _ | ⟨z, _ | ⟨u, _ | ⟨v, r⟩⟩⟩⟩ <;> first | exact exits_exit1 | exact h.bind

/-! ### Examples -/

section Examples
private def args (l : List String) : List (List Char) := l.map String.toList
private def words : ℕ → BitVec 32 := fun k => BitVec.ofNat 32 ((k + 3) * 2654435769)

example : (f2_random words (args ["5"])).run = ok ("1\n0\n1\n0\n1\n".toList, .val ()) := by decide +kernel
example : (f2_random words (args [])).run = ok ("1\n".toList, .val ()) := by decide +kernel
example : (f2_random words (args ["-5"])).run = ok ([], .val ()) := by decide +kernel
example : (f2_random words (args ["5", "5"])).run = ok ([], .exit1) := by decide +kernel
example : (f2_mat_random words 0 (args ["2", "3"])).run = ok ("1 0 1\n0 1 0\n".toList, .val ()) := by decide +kernel
example : (f2_mat_random words 0 (args ["2", "0"])).run = ok ([], .thrown) := by decide +kernel
example : (f2_p_random words (args ["6", "3"])).run = ok ("61\n78\n5e\n".toList, .val ()) := by decide +kernel
example : (f2_p_random words (args ["-1", "3"])).run = ok ([], .thrown) := by decide +kernel
example : (f2_p_random words (args ["-1", "0"])).run = ok ([], .val ()) := by decide +kernel
example : (f2_pm_random words (args ["11b", "3"])).run = ok ("9c\n9c\n94\n".toList, .val ()) := by decide +kernel
example : (f2_pm_mat_random words (args ["11b", "2", "2"])).run = ok ("9c 9c\n94 14\n".toList, .val ()) := by decide +kernel
example : (f2_pr_random words (args ["5", "3"])).run = ok ("18/1f\nd/8\n3e/23\n".toList, .val ()) := by decide +kernel
example : (f2_pr_mat_random words (args ["5", "2", "2"])).run = ok ("18/1f d/8\n3e/23 1c/17\n\n".toList, .val ()) := by decide +kernel
example : (fp_random words (args ["7", "3"])).run = ok ("3\n2\n4\n".toList, .val ()) := by decide +kernel
example : (fp_random words (args ["1", "3"])).run = ok ([], .thrown) := by decide +kernel
example : (fp_mat_random words (args ["7", "2", "3"])).run = ok ("3 2 4\n6 5 0\n".toList, .val ()) := by decide +kernel
example : (fp_p_random words (args ["7", "3", "2"])).run = ok ("3246\n5021\n".toList, .val ()) := by decide +kernel
example : (fp_pm_random words (args ["7", "1,0,1", "2"])).run = ok ("21\n51\n".toList, .val ()) := by decide +kernel
example : (fp_pm_random words (args ["7", "1", "2"])).run = ok ([], .thrown) := by decide +kernel
example : (fp_pm_mat_random words (args ["7", "1,0,1", "2", "2"])).run = ok ("21 51\n11 44\n".toList, .val ()) := by decide +kernel
example : (f2n_p_random words (args ["13", "3", "2"])).run = ok ("b:4:b:4\nb:c:3:c\n".toList, .val ()) := by decide +kernel
example : (f2n_pm_random words (args ["13", "1:0:1", "2"])).run = ok ("4:0\nb:8\n".toList, .val ()) := by decide +kernel
example : (f2n_pm_random words (args ["13", "0", "2"])).run = ok ([], .thrown) := by decide +kernel
example : (f2n_pm_mat_random words (args ["13", "1:0:1", "2", "2"])).run = ok ("4:0 b:8\nc:0 2:0\n\n".toList, .val ()) := by decide +kernel

private theorem seven : IsInt "7".toList (7 : Int) := by
  have : showInt 7 = "7".toList := by decide +kernel
  rw [← this]
  exact isInt_show (by unfold InInt; omega)

example : Prints (fp_random words ["7".toList, "7".toList]) (lines 7 fun k => showInt ((words k).toInt % 7)) () :=
  ((C111_fp words seven).1 (by norm_num)).1 _ _ (.inr ⟨_, 7, rfl, seven, rfl⟩)

end Examples

end Spffl.Props.Cmd111
