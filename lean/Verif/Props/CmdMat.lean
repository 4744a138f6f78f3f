import Verif.Proof.CmdMat
import Verif.Props.CmdPmRes
import Verif.Props.CmdF2Res
import Verif.Props.ExprMat
import Verif.Props.LinAlg
import Mathlib.FieldTheory.Finite.GaloisField

/-!
# C107: the commands on matrices
-/

namespace Spffl.Props.Cmd107
open Res Scan Polynomial VText Spffl.Cmd PText93 VText94 Expr90 Expr98
open F2P (Canon toPoly)
open Cmd101 (IsHex hex)
open Expr (rowsOf)

/-! ### What is on standard input -/

section
variable {α F : Type} [Field F]

/-- What a command that computes the order of `M` is to do: 0 for a singular matrix, else the order; that is undefined behaviour if it is no `int`. -/
def OrderOf {n : ℕ} (c : ℕ → Cmd Unit) (M : Matrix (Fin n) (Fin n) F) : Prop :=
  (M.det = 0 → ∀ k, Prints (c k) ['0', '\n'] ()) ∧
  (M.det ≠ 0 → orderOf M ≤ 2147483647 → ∀ k, orderOf M ≤ k → Prints (c k) (showInt (orderOf M) ++ ['\n']) ()) ∧
  (M.det ≠ 0 → 2147483647 < orderOf M → ∀ k, 2147483647 ≤ k → IsUb (c k))

/-- What it does on other input: an exception for a matrix that is not square, for rows of different lengths and for a bad row after another; undefined
behaviour if there are no rows, or if the first is bad. -/
def OrderBad (c : ℕ → List Char → Cmd Unit) (Text : List Char → F → Prop) (E : EltIO α) (rep : α → F → Prop) : Prop :=
  ∀ k cs, ((∃ (m n : ℕ) (M : Matrix (Fin m) (Fin n) F) (st : IStream), m ≠ n ∧ MatHolds Text cs M st) → ThrowsC (c k cs) []) ∧
    (Ragged Text cs → ThrowsC (c k cs) []) ∧ ((∃ j, BadRow Text E rep (j + 1) cs) → ThrowsC (c k cs) []) ∧
    (NoRows cs → IsUb (c k cs)) ∧ (BadRow Text E rep 0 cs → IsUb (c k cs))

/-- The usual text of a matrix: a line for each row, and nothing else. -/
theorem C107_holds {Text : List Char → F → Prop} {m n : ℕ} (hm : 0 < m) {M : Matrix (Fin m) (Fin n) F} {ts : List (List Char)}
    (h : List.Forall₂ (fun t xs => RowLine Text 0 t xs) ts (rowsOf M)) (hl : ∀ t ∈ ts, t.length < bufSize) :
    MatHolds Text (lines ts) M ⟨[], true, false⟩ :=
  ⟨hm, [], ts, [], 0, 0, by simp [lines], .nil, rows_of h hl, .inl ⟨by simp, by simp [bufSize], rfl⟩⟩

/-- A line that is refused: elements, and then something that is no element. -/
theorem C107_bad_row {E : EltIO α} {rep : α → F → Prop} {Text : List Char → F → Prop} (S : EltSpec False E rep Text) {ls : List (List Char)}
    {xss : List (List F)} {d : ℕ} (hls : Rows Text 0 ls xss d) {pre bad rest : List Char} {xs : List F}
    (h : (pre = [] ∧ xs = []) ∨ (VecText Text pre xs ∧ ∀ c ∈ bad.head?, blank c = true)) (hb : bad ≠ [])
    (hr : ∀ z, rep z 0 → (E.read z bad).Ok fun r => r.2.fail = true) (hn : '\n' ∉ pre ++ bad) (hc : '#' ∉ pre ++ bad)
    (hfit : d + (pre ++ bad).length + 1 ≤ bufSize) (h1 : ∀ c ∈ (pre ++ bad).head?, isSpace c = false) (h2 : ∀ c ∈ bad.getLast?, isSpace c = false) :
    BadRow Text E rep xss.length (lines ls ++ (pre ++ bad ++ '\n' :: rest)) := by
  have e1 : (pre ++ bad).takeWhile (· ≠ '#') = pre ++ bad := by
    rw [List.takeWhile_eq_self_iff]
    intro c hc'
    simp only [ne_eq, decide_eq_true_eq]
    rintro rfl
    exact hc hc'
  have e2 : (pre ++ bad).dropWhile isSpace = pre ++ bad := by
    cases hpb : pre ++ bad with
    | nil => rfl
    | cons c t =>
      rw [List.dropWhile_cons_of_neg]
      have := h1 c (by rw [hpb]; rfl)
      simp [this]
  have e3 : (pre ++ bad).reverse.dropWhile isSpace = (pre ++ bad).reverse := by
    cases hpb : (pre ++ bad).reverse with
    | nil => rfl
    | cons c t =>
      rw [List.dropWhile_cons_of_neg]
      have hl : (pre ++ bad).getLast? = some c := by rw [← List.head?_reverse, hpb]; rfl
      rw [List.getLast?_append_of_ne_nil _ hb] at hl
      simp [h2 c hl]
  refine ⟨[], ls, pre ++ bad, rest, 0, d, xss, by simp [lines], .nil, hls, rfl, hn, hfit, ?_, fun z hz j => ?_⟩
  · rw [e1]
    cases hpb : pre ++ bad with
    | nil => simp [hb] at hpb
    | cons c t => simp [h1 c (by rw [hpb]; rfl)]
  · rw [e1, e2, e3, List.reverse_reverse]
    have hlen : xs.length ≤ pre.length := by
      rcases h with ⟨-, rfl⟩ | ⟨h, -⟩
      · simp
      · exact h.length_le S
    refine (sat_false.1 (readVec_stop S (S.sub hz) (h.imp_right fun h => ⟨h.1, hb, h.2⟩) (fun z hz => sat_false.2 (hr z hz)) ?_)).mono fun _ h => h.2
    simp only [List.length_append, List.length_cons]
    omega

theorem order_pos [Finite F] {n : ℕ} {M : Matrix (Fin n) (Fin n) F} (h : M.det ≠ 0) : 0 < orderOf M := by
  have hu : IsUnit M := (Matrix.isUnit_iff_isUnit_det _).2 (isUnit_iff_ne_zero.2 h)
  obtain ⟨u, rfl⟩ := hu
  have : Finite (Matrix (Fin n) (Fin n) F) := inferInstanceAs (Finite (Fin n → Fin n → F))
  have : Finite (Matrix (Fin n) (Fin n) F)ˣ := Finite.of_injective (Units.val) Units.val_injective
  rw [orderOf_units]
  exact orderOf_pos u

variable {O : TOps α} {E : EltIO α} {rep : α → F → Prop} {Text : List Char → F → Prop} {zero one : α} {cs : List Char} {n : ℕ}

theorem order [Finite F] (H : EltRef False O rep) (S : EltSpec False E rep Text) (h0 : rep zero 0) (h1 : rep one 1) {M : Matrix (Fin n) (Fin n) F}
    {st : IStream} (h : MatHolds Text cs M st) : OrderOf (fun k => matOrd O E k zero one cs) M :=
  ⟨fun hd k => matOrd_singular H S h0 h hd k, fun hd hm _ hk => matOrd_prints H S h0 h1 h hd (order_pos hd) hm hk,
    fun hd hm _ hk => matOrd_ub H S h0 h1 h hd hm hk⟩

theorem order_bad (S : EltSpec False E rep Text) (h0 : rep zero 0) : OrderBad (fun k cs => matOrd O E k zero one cs) Text E rep :=
  fun k _ => ⟨fun h => matOrd_throws S h0 (.inl h) k, fun h => matOrd_throws S h0 (.inr (.inl h)) k,
    fun h => matOrd_throws S h0 (.inr (.inr h)) k, fun h => matOrd_none S h0 (.inl h) k, fun h => matOrd_none S h0 (.inr h) k⟩

theorem OrderOf.congr {c c' : ℕ → Cmd Unit} {M : Matrix (Fin n) (Fin n) F} (h : OrderOf c M) (e : ∀ k, c' k = c k) : OrderOf c' M := by
  rw [show c' = c from funext e]
  exact h

theorem OrderBad.congr {c c' : ℕ → List Char → Cmd Unit} (h : OrderBad c Text E rep) (e : ∀ k cs, c' k cs = c k cs) : OrderBad c' Text E rep := by
  rw [show c' = c from funext fun k => funext (e k)]
  exact h

end

/-! ### Orders -/

theorem bit_zero : BitT.Rep (BitT.ofInt 0) 0 := by simpa using BitT.rep_ofInt 0
theorem bit_one : BitT.Rep (BitT.ofInt 1) 1 := by simpa using BitT.rep_ofInt 1

/-- C107: f2_mat_ord. -/
theorem C107_f2_ord (r0 : ℕ) {n : ℕ} {M : Matrix (Fin n) (Fin n) (ZMod 2)} {cs : List Char} {st : IStream} (h : MatHolds BitWord cs M st) :
    OrderOf (fun k => f2_mat_ord r0 k cs []) M :=
  order BitT.eltRef (C98_bit r0) bit_zero bit_one h

theorem C107_violated_f2_ord (r0 : ℕ) : OrderBad (fun k cs => f2_mat_ord r0 k cs []) BitWord (Expr.bitIO r0) BitT.Rep :=
  order_bad (C98_bit r0) bit_zero

section fp
variable {p : ℕ} [hp : Fact p.Prime] {x : List Char}

/-- C107: fp_mat_ord, for any prime up to 46341. -/
theorem C107_fp_ord (hb : p ≤ 46341) (hx : IsInt x p) {n : ℕ} {M : Matrix (Fin n) (Fin n) (ZMod p)} {cs : List Char} {st : IStream}
    (h : MatHolds (ModWord p) cs M st) : OrderOf (fun k => fp_mat_ord k cs [x]) M := by
  obtain ⟨e0, e1, r0, r1⟩ := fp_zero_one hp.out.two_le hb
  refine (order (TM.C42_inst_intmod hp.out.two_le hb).1 (C94_mod hp.out.pos (by omega)) r0 r1 h).congr fun k => ?_
  exact (skip (intArg_prints hx) _).trans ((skip (prints_lift e0) _).trans (skip (prints_lift e1) _))

theorem C107_violated_fp_ord (hb : p ≤ 46341) (hx : IsInt x p) :
    OrderBad (F := ZMod p) (fun k cs => fp_mat_ord k cs [x]) (ModWord p) modIO (IntMod.Rep p) := by
  obtain ⟨e0, e1, r0, r1⟩ := fp_zero_one hp.out.two_le hb
  refine (order_bad (O := IntMod.cops.tops) (one := ⟨1, p⟩) (C94_mod hp.out.pos (by omega)) r0).congr fun k cs => ?_
  exact (skip (intArg_prints hx) _).trans ((skip (prints_lift e0) _).trans (skip (prints_lift e1) _))

variable {M : (ZMod p)[X]} [hM : Fact (Irreducible M)] {y : List Char}

theorem pm_ord (hb : p ≤ 46341) (hx : IsInt x p) (hy : FpDenotes p y M) : ∃ z o, CMod.Rep (IntMod.Rep p) M z 0 ∧ CMod.Rep (IntMod.Rep p) M o 1 ∧
    ∀ k cs, fp_pm_mat_ord k cs [x, y] = matOrd FpMod.cops.tops fpModIO k z o cs := by
  obtain ⟨mm, e1, hmm⟩ := (Cmd102.tool hb).read hy
  obtain ⟨z, o, hz, ho, rz, ro⟩ := fppm_psub hb hmm
  exact ⟨z, o, rz, ro, fun k cs => (skip (intArg_prints hx) _).trans ((skip (readArg_prints e1) _).trans
    ((skip (prints_lift hz) _).trans (skip (prints_lift ho) _)))⟩

theorem pm_finite : Finite (AdjoinRoot M) := by
  have := hM.out.ne_zero
  have h : Module.Finite (ZMod p) (AdjoinRoot M) := (AdjoinRoot.powerBasis this).finite
  exact Module.finite_of_finite (ZMod p)

/-- C107: fp_pm_mat_ord, for any irreducible modulus over a prime field.  A further argument is ignored. -/
theorem C107_fpn_ord (hb : p ≤ 46341) (hx : IsInt x p) (hy : FpDenotes p y M) {n : ℕ} {A : Matrix (Fin n) (Fin n) (AdjoinRoot M)} {cs : List Char}
    {st : IStream} (h : MatHolds (FpRep M) cs A st) :
    OrderOf (fun k => fp_pm_mat_ord k cs [x, y]) A ∧ ∀ w, OrderOf (fun k => fp_pm_mat_ord k cs [x, y, w]) A := by
  obtain ⟨z, o, rz, ro, e⟩ := pm_ord hb hx hy
  have := pm_finite (M := M)
  have key := order (TM.C42_inst_fp_polymod hb hM.out.ne_zero).1 (C94_fpmod hb) rz ro h
  exact ⟨key.congr fun k => e k cs, fun w => key.congr fun k => e k cs⟩

theorem C107_violated_fpn_ord (hb : p ≤ 46341) (hx : IsInt x p) (hy : FpDenotes p y M) :
    OrderBad (F := AdjoinRoot M) (fun k cs => fp_pm_mat_ord k cs [x, y]) (FpRep M) fpModIO (CMod.Rep (IntMod.Rep p) M) := by
  obtain ⟨z, o, rz, ro, e⟩ := pm_ord hb hx hy
  exact (order_bad (O := FpMod.cops.tops) (one := o) (C94_fpmod hb) rz).congr fun k cs => e k cs

end fp

section f2n
variable {m : (ZMod 2)[X]} [hm : Fact (Irreducible m)] {x : List Char}

theorem zero_one (hx : IsHex x m) : ∃ mm z o, Prints (f2Arg x) [] mm ∧ F2Mod.mk' (F2P.ofInt 0) mm = ok z ∧ F2Mod.mk' (F2P.ofInt 1) mm = ok o ∧
    F2Mod.Rep m z 0 ∧ F2Mod.Rep m o 1 := by
  obtain ⟨mm, h1, h2, h3⟩ := Cmd105.mod_arg hx
  obtain ⟨z, o, h⟩ := f2pm_zero_one h2 h3
  exact ⟨mm, z, o, h1, h⟩

theorem f2n_finite : Finite (AdjoinRoot m) := by
  have := hm.out.ne_zero
  have h : Module.Finite (ZMod 2) (AdjoinRoot m) := (AdjoinRoot.powerBasis this).finite
  exact Module.finite_of_finite (ZMod 2)

/-- C107: f2_pm_mat_ord, for any irreducible modulus. -/
theorem C107_f2n_ord (hx : IsHex x m) {n : ℕ} {M : Matrix (Fin n) (Fin n) (AdjoinRoot m)} {cs : List Char} {st : IStream}
    (h : MatHolds (HexRep m) cs M st) : OrderOf (fun k => f2_pm_mat_ord k cs [x]) M := by
  obtain ⟨mm, z, o, h1, h2, h3, h4, h5⟩ := zero_one hx
  have := f2n_finite (m := m)
  refine (order (TM.C42_inst_f2_polymod hm.out.ne_zero).1 (C94_f2mod hm.out.natDegree_pos) h4 h5 h).congr fun k => ?_
  exact (skip h1 _).trans ((skip (prints_lift h2) _).trans (skip (prints_lift h3) _))

theorem C107_violated_f2n_ord (hx : IsHex x m) :
    OrderBad (F := AdjoinRoot m) (fun k cs => f2_pm_mat_ord k cs [x]) (HexRep m) f2ModIO (F2Mod.Rep m) := by
  obtain ⟨mm, z, o, h1, h2, h3, h4, h5⟩ := zero_one hx
  refine (order_bad (O := F2Mod.cops.tops) (one := o) (C94_f2mod hm.out.natDegree_pos) h4).congr fun k cs => ?_
  exact (skip h1 _).trans ((skip (prints_lift h2) _).trans (skip (prints_lift h3) _))

end f2n

/-- C107: anything but one modulus ends with exit status 1, and so do moduli that cannot be read. -/
theorem C107_usage (r0 k : ℕ) (cs x y : List Char) (args : List (List Char)) :
    (args ≠ [] → Exits (f2_mat_ord r0 k cs args) []) ∧ (args.length ≠ 1 → Exits (fp_mat_ord k cs args) [] ∧ Exits (f2_pm_mat_ord k cs args) []) ∧
    (args.length ≠ 2 → args.length ≠ 3 → Exits (fp_pm_mat_ord k cs args) []) ∧
    (NotInt x → Exits (fp_mat_ord k cs [x]) [] ∧ Exits (fp_pm_mat_ord k cs [x, y]) []) ∧
    ((∀ f, ¬ IsHex x f) → Exits (f2_pm_mat_ord k cs [x]) []) ∧
    ∀ p : ℕ, p.Prime → p ≤ 46341 → IsInt x p → Cmd102.FpBad p y → Exits (fp_pm_mat_ord k cs [x, y]) [] := by
  refine ⟨fun h => ?_, fun h => ?_, fun h h' => ?_, fun h => ⟨?_, ?_⟩, fun h => ?_, fun p hp hb hx hy => ?_⟩
  · match args, h with
    | _ :: _, _ => rfl
  · match args, h with
    | [], _ => exact ⟨rfl, rfl⟩
    | _ :: _ :: _, _ => exact ⟨rfl, rfl⟩
  · match args, h, h' with
    | [], _, _ => rfl
    | [_], _, _ => rfl
    | _ :: _ :: _ :: _ :: _, _, _ => rfl
  · exact (intArg_exits h).bind
  · exact (intArg_exits h).bind
  · exact (readArg_exits (Cmd101.read_no h)).bind
  · have : Fact p.Prime := ⟨hp⟩
    exact (intArg_prints hx).then_exits (Cmd102.readArg_bad hb hy).bind

/-- C107: some matrices do have an order that is no `int`. -/
theorem C107_violated_order : ∃ M : Matrix (Fin 32) (Fin 32) (ZMod 2), M.det ≠ 0 ∧ 2147483647 < orderOf M := by
  let K := GaloisField 2 32
  have hcard : Nat.card K = 2 ^ 32 := GaloisField.card 2 32 (by norm_num)
  have : Finite K := Nat.finite_of_card_ne_zero (by rw [hcard]; norm_num)
  have : Fintype K := Fintype.ofFinite K
  obtain ⟨g, hg⟩ := IsCyclic.exists_generator (α := Kˣ)
  have ho : orderOf g = 2 ^ 32 - 1 := by
    rw [orderOf_eq_card_of_forall_mem_zpowers hg, Nat.card_units, hcard]
  have hr : Module.finrank (ZMod 2) K = 32 := GaloisField.finrank 2 (by norm_num)
  let b : Module.Basis (Fin 32) (ZMod 2) K := Module.finBasisOfFinrankEq (ZMod 2) K hr
  have hinj := Algebra.leftMulMatrix_injective b
  refine ⟨Algebra.leftMulMatrix b (g : K), ?_, ?_⟩
  · have : IsUnit (Algebra.leftMulMatrix b (g : K)) := g.isUnit.map (Algebra.leftMulMatrix b)
    exact ((Matrix.isUnit_iff_isUnit_det _).1 this).ne_zero
  · have : orderOf (Algebra.leftMulMatrix b (g : K)) = orderOf (g : K) :=
      orderOf_injective (Algebra.leftMulMatrix b : K →* Matrix (Fin 32) (Fin 32) (ZMod 2)) hinj _
    rw [this, orderOf_units, ho]
    norm_num

/-- C107: modulo 4, a matrix of order 4 (its determinant is -1) ends with an uncaught exception; modulo 5, the residue class of -4 = 1 is said to be of
order 2. -/
theorem C107_violated_residues : ThrowsC (fp_mat_ord 100 "2 1\n1 0\n".toList ["4".toList]) [] ∧
    (∃ j, 0 < j ∧ (!![2, 1; 1, 0] : Matrix (Fin 2) (Fin 2) (ZMod 4)) ^ j = 1) ∧
    Prints (fp_mat_ord 100 "-4\n".toList ["5".toList]) "2\n".toList () ∧ orderOf (!![(-4 : ZMod 5)]) = 1 := by
  have h1 : (fp_mat_ord 100 "2 1\n1 0\n".toList ["4".toList]).run = ok ([], .thrown) := by decide +kernel
  have h2 : (fp_mat_ord 100 "-4\n".toList ["5".toList]).run = ok ("2\n".toList, .val ()) := by decide +kernel
  refine ⟨h1, ⟨4, by decide, by decide⟩, h2, ?_⟩
  rw [orderOf_eq_one_iff]
  decide

/-! ### Characteristic polynomials -/

/-- What `characteristic polynomial` commands are to do. -/
def ChPol {α F : Type} [Field F] (c : (List Char → Option (List Char)) → List Char → List Char → Cmd Unit) (Text : List Char → F → Prop) (E : EltIO α)
    (rep : α → F → Prop) (txt : F[X] → List Char) : Prop :=
  ∀ files stdin name,
    (∀ cs, Source files stdin name cs → (∀ (n : ℕ) (M : Matrix (Fin n) (Fin n) F) st, MatHolds Text cs M st →
        Prints (c files stdin name) (txt M.charpoly ++ ['\n']) ()) ∧
      (∀ (m n : ℕ) (M : Matrix (Fin m) (Fin n) F) st, m ≠ n → MatHolds Text cs M st → ThrowsC (c files stdin name) []) ∧
      ((Ragged Text cs ∨ NoRows cs ∨ ∃ k, BadRow Text E rep k cs) → Exits (c files stdin name) [])) ∧
    (Missing files name → Exits (c files stdin name) [])

theorem chpol {α F β : Type} [Field F] {E : EltIO α} {rep : α → F → Prop} {Text : List Char → F → Prop} {zero : α} (S : EltSpec False E rep Text)
    (h0 : rep zero 0) {pol : TMat α → Res β} {sh : β → Res (List Char)} {txt : F[X] → List Char}
    {c : (List Char → Option (List Char)) → List Char → List Char → Cmd Unit}
    (hp : ∀ (n : ℕ) (M : Matrix (Fin n) (Fin n) F) A, MRep rep A M → 0 < n → ∃ p, pol A = ok p ∧ sh p = ok (txt M.charpoly))
    (hn : ∀ A, A.num_rows ≠ A.num_cols → pol A = .throw)
    (e : ∀ files stdin name, c files stdin name = matChPol E pol sh zero files stdin name) : ChPol c Text E rep txt := by
  intro files stdin name
  rw [e]
  exact ⟨fun cs hs => ⟨fun n M st h => matChPol_prints S h0 hs h (hp n M), fun m n M st hmn h => matChPol_throws S h0 hs h hmn hn,
    fun h => matChPol_exits S h0 (.inr ⟨cs, hs, h⟩)⟩, fun h => matChPol_exits S h0 (.inl h)⟩

/-- C107: f2_mat_ch_pol. -/
theorem C107_f2_ch_pol (r0 : ℕ) : ChPol (fun files stdin name => f2_mat_ch_pol r0 files stdin [name]) BitWord (Expr.bitIO r0) BitT.Rep hex :=
  chpol (C98_bit r0) bit_zero (fun n M A hA hn => by
    obtain ⟨r, e, h1, -, h2⟩ := LA.C64_f2_char_poly hn hA
    refine ⟨r, e, ?_⟩
    rw [F2P.print_ok h1.ne_nil, ← h2]
    rfl) (fun A h => LA.C64_nonsquare h) fun _ _ _ => rfl

/-- C107: fp_mat_ch_pol, for any prime up to 46341. -/
theorem C107_fp_ch_pol {p : ℕ} [hp : Fact p.Prime] (hb : p ≤ 46341) {x : List Char} (hx : IsInt x p) :
    ChPol (F := ZMod p) (fun files stdin name => fp_mat_ch_pol files stdin [x, name]) (ModWord p) modIO (IntMod.Rep p) fpOut := by
  obtain ⟨e0, e1, r0, r1⟩ := fp_zero_one hp.out.two_le hb
  refine chpol (sh := PText.fpShow) (C94_mod hp.out.pos (by omega)) r0 (fun n M A hA hn => ?_) (fun A h => LA.C80_nonsquare.1 A h) fun files stdin name => ?_
  · obtain ⟨r, e, h⟩ := LA.C80_fp hb hn hA
    exact ⟨r, e, (Cmd102.tool hb).sh h⟩
  · exact (skip (intArg_prints hx) _).trans (skip (prints_lift e0) _)

/-- C107: f2_pm_mat_ch_pol, for any irreducible modulus. -/
theorem C107_f2n_ch_pol {m : (ZMod 2)[X]} [hm : Fact (Irreducible m)] {x : List Char} (hx : IsHex x m) :
    ChPol (F := AdjoinRoot m) (fun files stdin name => f2_pm_mat_ch_pol files stdin [x, name]) (HexRep m) f2ModIO (F2Mod.Rep m) Cmd103.f2nOut := by
  obtain ⟨mm, h1, h2, h3⟩ := Cmd105.mod_arg hx
  obtain ⟨z, o, k1, k2, k3, k4⟩ := f2pm_zero_one h2 h3
  refine chpol (sh := PText.f2nShow) (C94_f2mod hm.out.natDegree_pos) k3 (fun n M A hA hn => ?_) (fun A h => LA.C80_nonsquare.2 A h) fun files stdin name => ?_
  · obtain ⟨r, e, h⟩ := LA.C80_f2n hn hA
    exact ⟨r, e, (Cmd103.tool h2 h3).sh h⟩
  · exact (skip h1 _).trans (skip (prints_lift k1) _)

/-- C107: other arguments. -/
theorem C107_ch_pol_usage (r0 : ℕ) (files : List Char → Option (List Char)) (stdin x y : List Char) (args : List (List Char)) :
    (args.length ≠ 1 → Exits (f2_mat_ch_pol r0 files stdin args) []) ∧
    (args.length ≠ 2 → Exits (fp_mat_ch_pol files stdin args) [] ∧ Exits (f2_pm_mat_ch_pol files stdin args) []) ∧
    (args.length ≠ 3 → Exits (f2_pm_mat_solve files stdin args) []) ∧
    (NotInt x → Exits (fp_mat_ch_pol files stdin [x, y]) []) ∧
    ((∀ f, ¬ IsHex x f) → Exits (f2_pm_mat_ch_pol files stdin [x, y]) [] ∧ ∀ z, Exits (f2_pm_mat_solve files stdin [x, y, z]) []) := by
  refine ⟨fun h => ?_, fun h => ?_, fun h => ?_, fun h => (intArg_exits h).bind, fun h => ⟨(readArg_exits (Cmd101.read_no h)).bind, fun z =>
    (readArg_exits (Cmd101.read_no h)).bind⟩⟩
  · match args, h with
    | [], _ => rfl
    | _ :: _ :: _, _ => rfl
  · match args, h with
    | [], _ => exact ⟨rfl, rfl⟩
    | [_], _ => exact ⟨rfl, rfl⟩
    | _ :: _ :: _ :: _, _ => exact ⟨rfl, rfl⟩
  · match args, h with
    | [], _ => rfl
    | [_], _ => rfl
    | [_, _], _ => rfl
    | _ :: _ :: _ :: _ :: _, _ => rfl

/-- C107, violated: the last line of a file without a newline at its end is dropped.  A square matrix of two or more rows is then refused, and one that is
not square but for its last row is taken for one that is. -/
theorem C107_violated_last_line {p : ℕ} [hp : Fact p.Prime] (hb : p ≤ 46341) {x : List Char} (hx : IsInt x p) {m n d : ℕ}
    {M : Matrix (Fin m) (Fin n) (ZMod p)} (hm : 0 < m) {ls : List (List Char)} (hl : Rows (ModWord p) 0 ls (rowsOf M) d) {last : List Char}
    (hlast : '\n' ∉ last) (hfit : d + last.length + 1 ≤ bufSize) (k : ℕ) :
    (m ≠ n → ThrowsC (fp_mat_ord k (lines ls ++ last) [x]) []) ∧
    (∀ e : m = n, ∀ files, Prints (fp_mat_ch_pol files (lines ls ++ last) [x, ['-']]) (fpOut (e ▸ M : Matrix (Fin n) (Fin n) (ZMod p)).charpoly ++ ['\n']) ()) := by
  have h : MatHolds (ModWord p) (lines ls ++ last) M ⟨[], true, false⟩ :=
    ⟨hm, [], ls, last, 0, d, rfl, .nil, hl, .inl ⟨hlast, hfit, rfl⟩⟩
  refine ⟨fun hmn => (C107_violated_fp_ord hb hx k _).1 ⟨m, n, M, _, hmn, h⟩, ?_⟩
  rintro rfl files
  exact ((C107_fp_ch_pol hb hx files (lines ls ++ last) ['-']).1 _ (.inl ⟨.inl rfl, rfl⟩)).1 m M _ h

/-! ### Linear systems -/

section solve
variable {m : (ZMod 2)[X]} [hm : Fact (Irreducible m)] {x nameA nameb csA csb stdin : List Char} {files : List Char → Option (List Char)}

theorem solve_eq (hx : IsHex x m) : ∃ z, F2Mod.Rep m z 0 ∧
    f2_pm_mat_solve files stdin [x, nameA, nameb] = matSolve F2Mod.cops.tops f2ModIO z files stdin nameA nameb := by
  obtain ⟨mm, z, o, h1, h2, h3, h4, h5⟩ := zero_one hx
  exact ⟨z, h4, (skip h1 _).trans ((skip (prints_lift h2) _).trans (skip (prints_lift h3) _))⟩

/-- C107: f2_pm_mat_solve: the solution if there is exactly one, else nothing and the value 1.  The right-hand side is a line of a file, or of what is left on
standard input. -/
theorem C107_solve_partial (hx : IsHex x m) (hs : Source files stdin nameA csA) {r c : ℕ} {M : Matrix (Fin r) (Fin c) (AdjoinRoot m)} {st : IStream}
    (h : MatHolds (HexRep m) csA M st) (hb : SourceV files (after nameA st (.ofChars stdin)) nameb csb) {y : Fin r → AdjoinRoot m}
    (hy : VecHolds (HexRep m) csb y) :
    (∀ z, M.mulVec z = y → (∀ w, M.mulVec w = y → w = z) →
      Prints (f2_pm_mat_solve files stdin [x, nameA, nameb]) (List.intercalate [' '] (List.ofFn fun i => Cmd103.padText (z i)) ++ ['\n']) 0) ∧
    ((¬ ∃! z, M.mulVec z = y) → Prints (f2_pm_mat_solve files stdin [x, nameA, nameb]) [] 1) := by
  obtain ⟨z, hz, e⟩ := solve_eq (files := files) (stdin := stdin) (nameA := nameA) (nameb := nameb) hx
  rw [e]
  have key := matSolve_prints (C94_f2mod hm.out.natDegree_pos) hz (TM.C42_inst_f2_polymod hm.out.ne_zero).1 hs h hb hy
    (txt := Cmd103.padText) fun a x h => Cmd105.res_text hm.out.natDegree_pos h
  exact ⟨fun w h1 h2 => key.1 ⟨w, h1, h2⟩ w h1, key.2⟩

/-- C107: no matrix, or no right-hand side. -/
theorem C107_solve_missing (hx : IsHex x m) :
    ((Missing files nameA ∨ ∃ cs, Source files stdin nameA cs ∧ (Ragged (HexRep m) cs ∨ NoRows cs ∨ ∃ k, BadRow (HexRep m) f2ModIO (F2Mod.Rep m) k cs)) →
      Exits (f2_pm_mat_solve files stdin [x, nameA, nameb]) []) ∧
    ∀ (r c : ℕ) (M : Matrix (Fin r) (Fin c) (AdjoinRoot m)) st, Source files stdin nameA csA → MatHolds (HexRep m) csA M st →
      (Missing files nameb ∨ ((nameA = ['-'] ∨ nameA = ['@']) ∧ (nameb = ['-'] ∨ nameb = ['@']) ∧ st.eof = true)) →
      Exits (f2_pm_mat_solve files stdin [x, nameA, nameb]) [] := by
  obtain ⟨z, hz, e⟩ := solve_eq (files := files) (stdin := stdin) (nameA := nameA) (nameb := nameb) hx
  rw [e]
  have S := C94_f2mod hm.out.natDegree_pos
  refine ⟨fun h => (loadArg_exits S hz h).bind, fun r c M st hs h hb => ?_⟩
  obtain ⟨A, e1, -⟩ := loadArg_prints S hz hs h
  refine e1.then_exits (loadV_exits ?_ _).bind
  rcases hb with hb | ⟨h1, h2, h3⟩
  · exact .inl hb
  · refine .inr ⟨h2, ?_⟩
    unfold after
    rw [if_pos h1]
    exact h3

/-- C107, violated: a right-hand side of another length ends with an uncaught exception if the columns of the matrix are linearly independent; if they are
not, the command says that there is no unique solution. -/
theorem C107_violated_length (hx : IsHex x m) (hs : Source files stdin nameA csA) {r c : ℕ} {M : Matrix (Fin r) (Fin c) (AdjoinRoot m)} {st : IStream}
    (h : MatHolds (HexRep m) csA M st) (hb : SourceV files (after nameA st (.ofChars stdin)) nameb csb) {l : ℕ} {y : Fin l → AdjoinRoot m}
    (hy : VecHolds (HexRep m) csb y) (hl : l ≠ r) :
    (M.rank = c → ThrowsC (f2_pm_mat_solve files stdin [x, nameA, nameb]) []) ∧
    (M.rank ≠ c → Prints (f2_pm_mat_solve files stdin [x, nameA, nameb]) [] 1) := by
  obtain ⟨z, hz, e⟩ := solve_eq (files := files) (stdin := stdin) (nameA := nameA) (nameb := nameb) hx
  rw [e]
  have S := C94_f2mod hm.out.natDegree_pos
  have H := (TM.C42_inst_f2_polymod (m := m) hm.out.ne_zero).1
  obtain ⟨A, e1, hA, hm', hn⟩ := loadArg_prints S hz hs h
  obtain ⟨b, s, e2, hv⟩ := loadV_prints S hz hb hy
  obtain ⟨k, k1, k2⟩ := sat_false.1 (rank_sat H hm' hn hA)
  have hle := M.rank_le_height
  subst k2
  constructor
  · intro hr
    refine e1.then_throws (e2.then_throws (throws_lift (?_ : TMat.solve_unique F2Mod.cops.tops A .empty b = .throw)).bind)
    unfold TMat.solve_unique
    rw [hA.shape.nr, hA.shape.nc, if_neg (by omega), k1, ok_bind, if_neg (by omega)]
    unfold TMat.solve_unique_full_rank TMat.paste_vector
    rw [if_pos (by rw [hA.shape.nr, hv.1]; exact fun h => hl h.symm)]
    rfl
  · intro hr
    have : TMat.solve_unique F2Mod.cops.tops A .empty b = ok (false, .empty) := by
      unfold TMat.solve_unique
      rw [hA.shape.nr, hA.shape.nc]
      by_cases hrc : r < c
      · rw [if_pos hrc]
      · rw [if_neg hrc, k1, ok_bind, if_pos hr]
    exact e1.then (e2.then ((prints_lift this).then (prints_pure _)))

end solve

/-! ### Examples -/

section Examples

private def args (l : List String) : List (List Char) := l.map String.toList
private def d1 : List Char → Option (List Char) := fun n => if n = "a".toList then some "2 1\n1 0\n".toList else none

example : (f2_mat_ord 0 10 "1 1\n1 0\n".toList []).run = ok ("3\n".toList, .val ()) := by decide +kernel
example : (fp_mat_ord 10 "1 1\n0 1\n".toList (args ["5"])).run = ok ("5\n".toList, .val ()) := by decide +kernel
example : (fp_mat_ord 10 "1 1\n2 2\n".toList (args ["5"])).run = ok ("0\n".toList, .val ()) := by decide +kernel
example : (f2_pm_mat_ord 10 "2 1\n1 0\n".toList (args ["7"])).run = ok ("5\n".toList, .val ()) := by decide +kernel
example : (fp_pm_mat_ord 20 "1,0 1\n1 0\n".toList (args ["3", "101", "zz"])).run = ok ("12\n".toList, .val ()) := by decide +kernel
example : (fp_mat_ord 10 "x\n".toList (args ["5"])).run = .ub := by decide +kernel
example : (fp_mat_ord 10 [] (args ["5"])).run = .ub := by decide +kernel
example : (fp_mat_ord 10 "1 1\n0 1".toList (args ["5"])).run = ok ([], .thrown) := by decide +kernel
example : (f2_pm_mat_ch_pol d1 [] (args ["7", "a"])).run = ok ("1:2:1\n".toList, .val ()) := by decide +kernel
example : (f2_pm_mat_ch_pol d1 [] (args ["7", "b"])).run = ok ([], .exit1) := by decide +kernel
example : (f2_pm_mat_ch_pol d1 "2 1\n1 0\n3 1".toList (args ["7", "-"])).run = ok ("1:2:1\n".toList, .val ()) := by decide +kernel
example : (f2_mat_ch_pol 0 d1 [] (args ["-"])).run = ok ([], .exit1) := by decide +kernel
example : (f2_pm_mat_solve d1 "2 1\n1 0\n\n3 1\n".toList (args ["7", "-", "@"])).run = ok ("1 1\n".toList, .val 0) := by decide +kernel
example : (f2_pm_mat_solve d1 "3 1".toList (args ["7", "a", "-"])).run = ok ("1 1\n".toList, .val 0) := by decide +kernel
example : (f2_pm_mat_solve d1 "3 1 1".toList (args ["7", "a", "-"])).run = ok ([], .thrown) := by decide +kernel
example : (f2_pm_mat_solve d1 "2 2\n1 1\n\n3 1 1\n".toList (args ["7", "-", "-"])).run = ok ([], .val 1) := by decide +kernel
example : (f2_pm_mat_solve d1 "2 1\n1 0\n".toList (args ["7", "-", "-"])).run = ok ([], .exit1) := by decide +kernel

private theorem word (c : Char) (n : ℕ) (h : showInt n = [c] := by decide +kernel) (hn : n < 10 := by decide) : ModWord 5 [c] (n : ZMod 5) :=
  ⟨n, h ▸ showInt_word n, by unfold InInt; omega, by omega, by simp⟩

local instance : Fact (Nat.Prime 5) := ⟨by norm_num⟩

private theorem held : MatHolds (ModWord 5) "1 1\n0 1\n".toList !![((1 : ℕ) : ZMod 5), ((1 : ℕ) : ZMod 5); ((0 : ℕ) : ZMod 5), ((1 : ℕ) : ZMod 5)]
    ⟨[], true, false⟩ := by
  have h := C107_holds (Text := ModWord 5) (by decide) (M := !![((1 : ℕ) : ZMod 5), ((1 : ℕ) : ZMod 5); ((0 : ℕ) : ZMod 5), ((1 : ℕ) : ZMod 5)])
    (ts := ["1 1".toList, "0 1".toList]) (.cons ⟨[], "1 1".toList, [], [], by decide, rfl, by simp, by simp,
      .cons (ws := []) (t := ['1']) (cs := " 1".toList) (by simp) (word '1' 1) (.one (ws := [' ']) (t := ['1']) (by decide) (word '1' 1)) (by decide),
      by decide, .inl rfl, by decide⟩ (.cons ⟨[], "0 1".toList, [], [], by decide, rfl, by simp, by simp,
      .cons (ws := []) (t := ['0']) (cs := " 1".toList) (by simp) (word '0' 0) (.one (ws := [' ']) (t := ['1']) (by decide) (word '1' 1)) (by decide),
      by decide, .inl rfl, by decide⟩ .nil)) (by decide)
  exact h

private theorem five : IsInt "5".toList (5 : ℕ) := by
  have : showInt 5 = "5".toList := by decide +kernel
  rw [← this]
  exact isInt_show (by unfold InInt; omega)

-- the hypotheses hold for the matrix of a shear
example : OrderOf (fun k => fp_mat_ord k "1 1\n0 1\n".toList ["5".toList]) !![(1 : ZMod 5), 1; 0, 1] ∧ (!![(1 : ZMod 5), 1; 0, 1]).det ≠ 0 ∧
    orderOf !![(1 : ZMod 5), 1; 0, 1] = 5 := by
  refine ⟨?_, by decide, orderOf_eq_prime (by decide) (by decide)⟩
  have h := C107_fp_ord (by norm_num) five held
  simp only [Nat.cast_one, Nat.cast_zero] at h
  exact h

end Examples

end Spffl.Props.Cmd107
