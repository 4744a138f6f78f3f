import Verif.Proof.CmdLast
import Verif.Proof.CPolyZ
import Verif.Props.CmdCalc

/-!
# C113: the calculator for polynomials over Q, and the command that tests matrices for diagonalizability
-/

namespace Spffl.Props.Cmd113
open Res Scan Polynomial VText Spffl.Cmd VText94 Expr90 Expr98
open F2P (Canon toPoly nval)
open Cmd101 (IsHex hex msk)
open Cmd103 (padText f2nOut)
open CP (F2n)
open TM (F2nMat)
open LA (HasEigenbasis)

section
variable {m : (ZMod 2)[X]} [hm : Fact (Irreducible m)] {x : List Char} {files : List Char → Option (List Char)} {stdin name cs : List Char}
  (W : ℕ → BitVec 64) {qs : List (F2Mod × ℕ) → List (F2Mod × ℕ)} {vs : List F2Mod → List F2Mod}

theorem diag_arg (hx : IsHex x m) : ∃ z, F2Mod.Rep m z 0 ∧ ∀ tm name, f2_pm_mat_diagonalizable tm qs vs files stdin [x, name] =
    loadArg (loadM f2ModIO files (.ofChars stdin) ⟨1, 1, [[z]]⟩ name) >>= fun r => diagPrint tm qs vs r.1 := by
  obtain ⟨mm, h1, h2, h3⟩ := Cmd105.mod_arg hx
  obtain ⟨z, o, k1, k2, k3, k4⟩ := f2pm_zero_one h2 h3
  exact ⟨z, k3, fun tm name => (skip h1 _).trans (skip (prints_lift k1) _)⟩

/-- C113: f2_pm_mat_diagonalizable, for every square matrix over a field F2[x]/(m) whose characteristic polynomial splits in some field F2[x]/(m')
with deg m' at most 30.  Printed are, one after the other, the matrix; its characteristic polynomial; the factorization into powers of different
irreducible polynomials in ascending order; each factor with its degree; the least common multiple of the degrees; the modulus; the degree and the
modulus of a field over which the polynomial splits; for each eigenvalue in ascending order its multiplicity as a root, its nullity, and the matrix
minus it; whether the matrix is diagonalizable over that field; the modulus again; and the eigenvalues.  The degree divides that of every field over
which the polynomial splits; the modulus is `m` if `m` will do, and else the one of that degree with the least binary number; there is an embedding of
fields for which the printed eigenvalues are exactly the roots of the characteristic polynomial.
Missing: splitting fields of degree above 30 (`C113_violated_31`). -/
theorem C113_diagonalizable_partial (hqs : IsQsort F2Mod.lt qs) (hvs : IsSort F2Mod.lt vs) (hx : IsHex x m) (hs : Source files stdin name cs) {n : ℕ}
    {M : Matrix (Fin n) (Fin n) (AdjoinRoot m)} {st : IStream} (h : MatHolds (HexRep m) cs M st) (hmax : (n : Int) ≤ INT_MAX)
    {m' : (ZMod 2)[X]} [Fact (Irreducible m')] (hm' : m'.natDegree ≤ 30) (χ : AdjoinRoot m →+* AdjoinRoot m') (hsp : (M.charpoly.map χ).Splits) :
    ∃ (μ : (ZMod 2)[X]) (_ : Fact (Irreducible μ)) (φ : AdjoinRoot m →+* AdjoinRoot μ) (l : List ((AdjoinRoot m)[X] × ℕ)) (ys : List (AdjoinRoot μ))
      (w : List Char), Report M l φ ys ∧
      Either (HasEigenbasis (M.map φ)) "Diagonalizable.\n".toList "Non-diagonalizable.\n".toList w ∧
      Either (∃ (E : Type) (_ : Field E) (ψ : AdjoinRoot m →+* E), HasEigenbasis (M.map ψ)) "Diagonalizable.\n".toList "Non-diagonalizable.\n".toList w ∧
      Prints (f2_pm_mat_diagonalizable (msk W) qs vs files stdin [x, name]) (baseText M l ++ splitText (M.map φ) ys ++ endText w ys) () := by
  have := finite_adjoin m
  obtain ⟨z, hz, e⟩ := diag_arg (qs := qs) (vs := vs) (files := files) (stdin := stdin) hx
  obtain ⟨A, h1, hA, hn, -⟩ := loadArg_prints (C94_f2mod hm.out.natDegree_pos) hz hs h
  obtain ⟨μ, hμ, φ, l, ys, b, ext, evs, k1, k2, k3, k4, k5, k6⟩ := diagReport_prints W hqs hvs hn hmax hA hm' χ hsp
  refine ⟨μ, hμ, φ, l, ys, _, k1, either_of k5 _ _, either_of (k5.trans ⟨fun h => ⟨_, _, φ, h⟩, ?_⟩) _ _, ?_⟩
  · rintro ⟨E, _, ψ, h⟩
    exact Diag.diag_ext φ ψ k1.splits h
  rw [e]
  refine h1.then ?_
  have hloop : ∀ evs ys, List.Forall₂ (F2Mod.Rep μ) evs ys → ∀ pre : TVec F2Mod, Prints ((List.range' pre.length evs.length).forM fun i => do
      let e ← lift (TVec.get (pre ++ evs) i)
      out "  ".toList
      putLine PText.f2ModShow e) (ys.flatMap fun y => "  ".toList ++ padText y ++ ['\n']) () := by
    intro evs ys h
    induction h with
    | nil => exact fun _ => prints_pure ()
    | @cons a y as ys hay _ ih =>
      intro pre
      have eg : TVec.get (pre ++ a :: as) pre.length = ok a := by
        unfold TVec.get rd
        rw [if_pos (by simp)]
        simp
      have h2 := ih (pre ++ [a])
      rw [List.append_assoc, List.length_append] at h2
      have h3 : Prints (do
          let e ← lift (TVec.get (pre ++ a :: as) pre.length)
          out "  ".toList
          putLine PText.f2ModShow e) ("  ".toList ++ padText y ++ ['\n']) () :=
        ((prints_lift eg).then ((prints_out _).bind (putLine_prints (Cmd103.mod_text hay)))).of_eq (List.append_assoc _ _ _).symm
      exact h3.bind (f := fun _ => (List.range' (pre.length + 1) as.length).forM _) h2
  have h2 := hloop evs ys k4 []
  unfold diagPrint
  refine (k6.bind ((prints_out _).bind ((prints_out _).bind ((put_prints (F2P.print_ok k2.ne_nil)).bind ((prints_out _).bind
    (by rw [List.range_eq_range']; exact h2)))))).of_eq ?_
  rw [k3]
  unfold endText
  generalize "\nSplitter modulus: ".toList = a, "\nEigenvalues:\n".toList = b, "Diagonalizable.\n".toList = c, "Non-diagonalizable.\n".toList = d
  simp only [List.append_assoc, hex]

/-- C113: a matrix that is not square is printed, and an exception thrown. -/
theorem C113_diag_nonsquare (tm : TrimMask) (hx : IsHex x m) (hs : Source files stdin name cs) {r c : ℕ} (hrc : r ≠ c)
    {M : Matrix (Fin r) (Fin c) (AdjoinRoot m)} {st : IStream} (h : MatHolds (HexRep m) cs M st) :
    ThrowsC (f2_pm_mat_diagonalizable tm qs vs files stdin [x, name])
      ("\nf2_polymod diagonalizable input =\n".toList ++ matText padText M ++ ['\n']) := by
  obtain ⟨z, hz, e⟩ := diag_arg (qs := qs) (vs := vs) (files := files) (stdin := stdin) hx
  obtain ⟨A, h1, hA, hn, -⟩ := loadArg_prints (C94_f2mod hm.out.natDegree_pos) hz hs h
  rw [e]
  have hM : showMat f2ModIO A = ok (matText padText M) := showMat_text hA fun a x h => Cmd103.mod_text h
  refine (h1.bind_throws (ThrowsC.bind ((prints_out _).bind_throws ((putLine_prints hM).bind_throws
    (throws_lift (LA.C80_nonsquare.2 A (by rw [hA.shape.nr, hA.shape.nc]; exact hrc))).bind)))).of_eq ?_
  generalize "\nf2_polymod diagonalizable input =\n".toList = a
  simp

/-- C113: other arguments. -/
theorem C113_diag_usage (tm : TrimMask) (args : List (List Char)) (y : List Char) :
    (args.length ≠ 2 → Exits (f2_pm_mat_diagonalizable tm qs vs files stdin args) []) ∧
    ((∀ f, ¬ IsHex y f) → Exits (f2_pm_mat_diagonalizable tm qs vs files stdin [y, name]) []) ∧
    (IsHex x m → Missing files name ∨ (∃ cs, Source files stdin name cs ∧ (Ragged (HexRep m) cs ∨ NoRows cs ∨
      ∃ k, BadRow (HexRep m) f2ModIO (F2Mod.Rep m) k cs)) → Exits (f2_pm_mat_diagonalizable tm qs vs files stdin [x, name]) []) := by
  refine ⟨fun h => ?_, fun h => (readArg_exits (Cmd101.read_no h)).bind, fun hx h => ?_⟩
  · match args, h with
    | [], _ => rfl
    | [_], _ => rfl
    | _ :: _ :: _ :: _, _ => rfl
  · obtain ⟨z, hz, e⟩ := diag_arg (qs := qs) (vs := vs) (files := files) (stdin := stdin) hx
    rw [e]
    exact (loadArg_exits (C94_f2mod hm.out.natDegree_pos) hz h).bind

end

section bad
variable {qs : List (F2Mod × ℕ) → List (F2Mod × ℕ)} {vs : List F2Mod → List F2Mod}

theorem bad_start (tm : TrimMask) {x cs t u : List Char} {mm : F2P} {z : F2Mod} {A : TMat F2Mod × IStream} {p : CPoly F2Mod}
    (h1 : Prints (f2Arg x) [] mm) (h2 : F2Mod.mk' (F2P.ofInt 0) mm = ok z)
    (h3 : Prints (loadArg (loadM f2ModIO (fun _ => none) (.ofChars cs) ⟨1, 1, [[z]]⟩ ['-'])) [] A)
    (h4 : showMat f2ModIO A.1 = ok t) (h5 : LinAlg.f2n_char_poly A.1 = ok p) (h6 : PText.f2nShow p = ok u) :
    (F2nP.factor p = .throw → ThrowsC (f2_pm_mat_diagonalizable tm qs vs (fun _ => none) cs [x, ['-']])
      ("\nf2_polymod diagonalizable input =\n".toList ++ (t ++ ['\n']) ++ ("chpoly = ".toList ++ (u ++ ['\n'])))) ∧
    (F2nP.factor p = .ub → IsUb (f2_pm_mat_diagonalizable tm qs vs (fun _ => none) cs [x, ['-']])) := by
  have e : f2_pm_mat_diagonalizable tm qs vs (fun _ => none) cs [x, ['-']] = diagPrint tm qs vs A.1 :=
    (skip h1 _).trans ((skip (prints_lift h2) _).trans (skip h3 _))
  rw [e]
  constructor
  · intro h
    refine (ThrowsC.bind ((prints_out _).bind_throws ((putLine_prints h4).bind_throws ((prints_lift h5).bind_throws ((prints_out _).bind_throws
      ((putLine_prints h6).bind_throws (throws_lift h).bind)))))).of_eq ?_
    generalize "\nf2_polymod diagonalizable input =\n".toList = a, "chpoly = ".toList = b
    simp
  · intro h
    exact IsUb.bind ((prints_out _).bind_ub ((putLine_prints h4).bind_ub ((prints_lift h5).bind_ub ((prints_out _).bind_ub
      ((putLine_prints h6).bind_ub (ub_lift h).bind)))))

/-- C113, violated: the diagonal matrix diag(0, 1) over F_{2^31}: an exception is thrown once the characteristic polynomial is printed. -/
theorem C113_violated_31 (tm : TrimMask) : Irreducible (toPoly [0x80000009#64]) ∧
    ThrowsC (f2_pm_mat_diagonalizable tm qs vs (fun _ => none) "0 0\n0 1\n".toList ["80000009".toList, "-".toList])
      "\nf2_polymod diagonalizable input =\n00000000 00000000\n00000000 00000001\n\nchpoly = 1:1:0\n".toList := by
  refine ⟨LA.C95_violated_31 (qs := qs) (vs := vs) tm |>.1, ?_⟩
  have := (bad_start (qs := qs) (vs := vs) tm (x := "80000009".toList) (cs := "0 0\n0 1\n".toList) (mm := [0x80000009#64]) (z := ⟨[0], [0x80000009#64]⟩)
    (A := (LA.mtx 0x80000009 [[0, 0], [0, 1]], ⟨[], true, false⟩)) (p := f2nOf 0x80000009 [0, 1, 1]) (t := "00000000 00000000\n00000000 00000001\n".toList)
    (u := "1:1:0".toList) (by show _ = _; decide +kernel) (by decide +kernel) (by show _ = _; decide +kernel) (by decide +kernel) (by decide +kernel)
    (by decide +kernel)).1 C57_violated_31.2
  exact this

/-- C113, violated: over F_{2^32} the behaviour is undefined. -/
theorem C113_violated_32 (tm : TrimMask) : Irreducible (toPoly [0x100400007#64]) ∧
    IsUb (f2_pm_mat_diagonalizable tm qs vs (fun _ => none) "0 0\n0 1\n".toList ["100400007".toList, "-".toList]) := by
  refine ⟨LA.C95_violated_32 (qs := qs) (vs := vs) tm |>.1, ?_⟩
  have := (bad_start (qs := qs) (vs := vs) tm (x := "100400007".toList) (cs := "0 0\n0 1\n".toList) (mm := [0x100400007#64]) (z := ⟨[0], [0x100400007#64]⟩)
    (A := (LA.mtx 0x100400007 [[0, 0], [0, 1]], ⟨[], true, false⟩)) (p := f2nOf 0x100400007 [0, 1, 1])
    (t := "00000000 00000000\n00000000 00000001\n".toList)
    (u := "1:1:0".toList) (by show _ = _; decide +kernel) (by decide +kernel) (by show _ = _; decide +kernel) (by decide +kernel) (by decide +kernel)
    (by decide +kernel)).2 C57_violated_32.2
  exact this

/-! ### Examples -/

def diagOf (x cs : String) : Cmd Unit :=
  f2_pm_mat_diagonalizable (fun _ => ok 5#64) (isort F2Mod.lt) LA.vsort (fun _ => none) cs.toList [x.toList, ['-']]

/-- t^2 + t + x over F_4 splits over F_16. -/
example : Prints (diagOf "7" "0 2\n1 1\n") "\nf2_polymod diagonalizable input =\n0 2\n1 1\n\nchpoly = 1:1:2\nfactors = 1:1:2\n  factor = 1:1:2, deg = 2\nLCM of degrees = 2\nBase modulus = 7\nExtension degree (over F2) = 4\nExtension modulus = 13\nEigenvalue 2 multiplicity 1 nullity 1\nA - 2 * I =\n2 6\n1 3\n\nEigenvalue 3 multiplicity 1 nullity 1\nA - 3 * I =\n3 6\n1 2\n\nDiagonalizable.\n\nSplitter modulus: 13\nEigenvalues:\n  2\n  3\n".toList () := by
  show _ = _; decide +kernel

example : Prints (diagOf "7" "1 1\n0 1\n") "\nf2_polymod diagonalizable input =\n1 1\n0 1\n\nchpoly = 1:0:1\nfactors = 1:1^2\n  factor = 1:1, deg = 1\nLCM of degrees = 1\nBase modulus = 7\nExtension degree (over F2) = 2\nExtension modulus = 7\nEigenvalue 1 multiplicity 2 nullity 1\nA - 1 * I =\n0 1\n0 0\n\nNon-diagonalizable.\n\nSplitter modulus: 7\nEigenvalues:\n  1\n".toList () := by
  show _ = _; decide +kernel

/-- Modulo x^2 + x, which is reducible, an exception is thrown halfway even for a diagonal matrix. -/
example : ThrowsC (diagOf "6" "2 0\n0 3\n") "\nf2_polymod diagonalizable input =\n2 0\n0 3\n\nchpoly = 1:1:0\nfactors = 1:0 1:1\n  factor = 1:0, deg = 1\n  factor = 1:1, deg = 1\nLCM of degrees = 1\nBase modulus = 6\nExtension degree (over F2) = 2\nExtension modulus = 6\n".toList := by
  show _ = _; decide +kernel

example : ThrowsC (diagOf "7" "0 2\n") "\nf2_polymod diagonalizable input =\n0 2\n\n".toList := by show _ = _; decide +kernel

end bad

/-! ### q_p_op -/

section q
open Spffl.Expr PText93 Expr96 Cmd109 PText _root_.Spffl.Cyclo
open CPoly (PRep polyLt)
variable {t : Tree} {ts k : List String}

/-- The polynomial that a text of digits and commas stands for: without a comma, each digit is a coefficient; otherwise the numbers between the
commas are the coefficients, each at most `INT_MAX`.  The leading coefficient comes first. -/
def QWord (cs : List Char) (f : ℤ[X]) : Prop :=
  cs ≠ [] ∧ (∀ c ∈ cs, isDig c = true ∨ c = ',') ∧
  ((',' ∉ cs ∧ f = horner (cs.map fun c => (digVal c : ℤ))) ∨
    (',' ∈ cs ∧ ∃ xs, (cs.splitOnP (· == ',')).filter (· ≠ []) ≠ [] ∧ List.Forall₂ QReads ((cs.splitOnP (· == ',')).filter (· ≠ [])) xs ∧ f = horner xs))

/-- What is read of an argument: the digits and commas that it starts with. -/
def QLit (cs : List Char) (f : ℤ[X]) : Prop :=
  ∃ t rest, cs = t ++ rest ∧ QWord t f ∧ ∀ c ∈ rest.head?, isDig c = false ∧ c ≠ ','

/-- The text of a rational number. -/
def ratText (r : ℚ) : List Char := if r.den = 1 then showInt r.num else showInt r.num ++ '/' :: showInt r.den

/-- The text of a polynomial: its coefficients, the leading one first. -/
noncomputable def qpText (f : ℚ[X]) : List Char := List.intercalate [','] ((List.range (f.natDegree + 1)).reverse.map fun i => ratText (f.coeff i))

theorem qlit_read {z : CPoly IntRat} {cs : List Char} {f : ℤ[X]} (h : QLit cs f) :
    (qpIO.read z cs).Ok fun r => PRep ZRep r.1 f ∧ r.2.fail = false := by
  obtain ⟨t, rest, rfl, ⟨hne, hch, hf⟩, hrest⟩ := h
  have hfp : ∀ c ∈ t, fpChar c = true := fun c hc => by
    rcases hch c hc with h | rfl
    · unfold fpChar; simp [h]
    · rfl
  have hnb : ∀ c, fpChar c = true → Scan.blank c = false := by
    intro c hc
    by_contra h
    rw [Bool.not_eq_false] at h
    unfold Scan.blank at h
    simp only [Bool.or_eq_true, decide_eq_true_eq] at h
    rcases h with ((rfl | rfl) | rfl) | rfl <;> revert hc <;> decide
  obtain ⟨c, cs, rfl⟩ := List.exists_cons_of_ne_nil hne
  have h1 : ((c :: cs) ++ rest).dropWhile Scan.blank = c :: (cs ++ rest) :=
    List.dropWhile_cons_of_neg (by rw [hnb c (hfp c (by simp))]; simp)
  have hr : ∀ c ∈ rest.head?, fpChar c = false := fun c hc => by
    unfold fpChar
    simp [(hrest c hc).1, (hrest c hc).2]
  have h2 : (c :: (cs ++ rest)).takeWhile fpChar = c :: cs := by
    rw [← List.cons_append, List.takeWhile_append_of_pos hfp]
    cases rest with
    | nil => simp
    | cons d ds => rw [List.takeWhile_cons_of_neg (by rw [hr d rfl]; simp)]; simp
  have key : (qFromString (c :: cs)).Ok fun r => ∃ b, r = .val b ∧ PRep ZRep b f := by
    rcases hf with ⟨hc, rfl⟩ | ⟨hc, xs, hts, hx, rfl⟩
    · refine (C93_q_digits hc).1 hne fun d hd => ?_
      rcases hch d hd with h | rfl
      · exact h
      · exact absurd hd hc
    · exact (C93_q_list hc rfl).1 xs hts hx
  obtain ⟨r, k1, b, rfl, k3⟩ := key
  refine ⟨(b, ⟨((c :: (cs ++ rest)).dropWhile fpChar), ((c :: (cs ++ rest)).dropWhile fpChar).isEmpty, false⟩), ?_, k3, rfl⟩
  show (qExtract z _ >>= _) = _
  unfold qExtract
  rw [h1]
  simp only [h2]
  rw [if_neg (by simp), k1]
  rfl

theorem rep_of_z {a : CPoly IntRat} {f : ℤ[X]} (h : PRep ZRep a f) : PRep IntRat.Rep a (f.map (Int.castRingHom ℚ)) := by
  refine ⟨?_, fun i hi => ?_⟩
  · rw [natDegree_map_eq_of_injective (Int.castRingHom ℚ).injective_int]; exact h.deg
  · obtain ⟨e, h1, rfl, h3⟩ := h.co i hi
    rw [abs_le] at h3
    have e : INT_MIN = -2147483648 := rfl
    refine ⟨_, h1, ?_⟩
    rw [coeff_map]
    exact rep_int (by unfold InInt; omega) (by omega)

theorem q_show {a : CPoly IntRat} {f : ℚ[X]} (h : PRep IntRat.Rep a f) : qpIO.print a = ok (qpText f) := by
  obtain ⟨g, hg, e⟩ := q_texts h
  show qShow a = _
  rw [e]
  unfold qpText
  congr 2
  refine List.map_congr_left fun i hi => ?_
  simp only [List.mem_reverse, List.mem_range] at hi
  obtain ⟨h1, h2⟩ := (hg i hi).num_eq
  unfold showRat ratText
  rw [h1, h2]
  by_cases h : (f.coeff i).den = 1 <;> simp [h]

theorem q_follows (hd : Derives scalarG .Q t ts) (hk : Tail k) : ∃ z o, PRep ZRep z 0 ∧ PRep ZRep o 1 ∧
    Follows ['\n'] k (calcOp (cpolyOps IntRat.cops) qpIO z o ts) (q_p_op (argv ts k)) := by
  have key : ∀ n : Int, |n| ≤ 2147483647 → (IntRat.ofInt n >>= CPoly.const IntRat.cops).Ok fun r => PRep ZRep r (C n) := by
    intro n hn
    rw [show IntRat.ofInt n = ok ⟨n, 1⟩ from simplify_int hn, ok_bind]
    exact sat_false.1 (CPoly.const_cmp z_cmp ⟨rfl, hn⟩)
  obtain ⟨z, hz, hz'⟩ := key 0 (by norm_num)
  obtain ⟨o, ho, ho'⟩ := key 1 (by norm_num)
  rw [C_0] at hz'
  rw [C_1] at ho'
  refine ⟨z, o, hz', ho', ?_⟩
  have e : pair (IntRat.ofInt 0 >>= CPoly.const IntRat.cops) (IntRat.ofInt 1 >>= CPoly.const IntRat.cops) = ok (z, o) := by
    unfold pair
    rw [hz, ok_bind, ho, ok_bind]
  unfold q_p_op
  rw [e, lift_ok, pure_bind]
  exact scalar_follows (z, o) hd hk

/-- C113: q_p_op prints the value of the expression, with quotients and remainders those of division of polynomials with rational coefficients; it
throws where a divisor is zero.  Missing for the full property: whether the behaviour is undefined, as it is where numbers overflow or unary minus is
applied to a polynomial of positive degree (`C113_violated_minus`); but see `C113_q_p_op_exact`. -/
theorem C113_q_p_op_partial {lit : String → Option ℚ[X]} (hd : Derives scalarG .Q t ts) (hk : Tail k)
    (hv : Literals (fun w x => ∃ f, QLit w f ∧ x = f.map (Int.castRingHom ℚ)) lit t) :
    CAnswers True (fun w x => w = qpText x) k (q_p_op (argv ts k)) (denSQ (polySem ℚ) lit intLit (polyLt (· < ·)) t) := by
  obtain ⟨z, o, hz, ho, F⟩ := q_follows hd hk
  have hz := rep_of_z hz
  have ho := rep_of_z ho
  rw [Polynomial.map_zero] at hz
  rw [Polynomial.map_one] at ho
  refine of_answers F (answers_of ?_)
  refine calc_right (Text := fun w x => ∃ f, QLit w f ∧ x = f.map (Int.castRingHom ℚ)) (cpoly_rref IntRat.cops_ref fun h => neg_true IntRat.cops_ref h) hz ho (fun {t x} ht => ?_)
    (fun {a x} ha => ⟨_, q_show ha, rfl⟩) hd hv (exps (.inl trivial))
  obtain ⟨f, hf, rfl⟩ := ht
  exact (qlit_read hf).sat.mono fun r hr => ⟨rep_of_z hr.1, hr.2⟩

/-- `t` is an expression of sums, differences and products with the value `f`, and no product of sizes nor sum of sizes on the way is beyond the
range of `int`. -/
inductive Small : Tree → ℤ[X] → Prop
  | lit {s : String} {f : ℤ[X]} : QLit s.toList f → Small (.lit s) f
  | add {t u : Tree} {f g : ℤ[X]} : Small t f → Small u g → size f + size g ≤ 2147483647 → Small (.bin .plus t u) (f + g)
  | sub {t u : Tree} {f g : ℤ[X]} : Small t f → Small u g → size f + size g ≤ 2147483647 → Small (.bin .minus t u) (f - g)
  | mul {t u : Tree} {f g : ℤ[X]} : Small t f → Small u g → size f * size g ≤ 2147483647 → Small (.bin .mul t u) (f * g)

theorem small_eval {z o : CPoly IntRat} {f : ℤ[X]} (h : Small t f) :
    (Expr.eval (scalar (cpolyOps IntRat.cops) z o (elt qpIO z) (fun s => Scan.readInt s.toList)) false t).Ok fun v => ∃ a, v = .val a ∧ PRep ZRep a f := by
  induction h with
  | @lit s f h =>
    obtain ⟨r, h1, h2, h3⟩ := qlit_read (z := z) h
    refine ⟨.val r.1, ?_, _, rfl, h2⟩
    simp only [Expr.eval, scalar, elt, h1, ok_bind, h3, Bool.false_eq_true, if_false]
  | @add t u f g h1 h2 hs ih1 ih2 =>
    obtain ⟨_, e1, a, rfl, ha⟩ := ih1
    obtain ⟨_, e2, b, rfl, hb⟩ := ih2
    obtain ⟨c, e3, hc⟩ := sat_false.1 (addz_ok ha hb hs)
    refine ⟨.val c, ?_, _, rfl, hc⟩
    simp only [Expr.eval, e1, Bool.false_or, reduceCtorEq, decide_false, e2, ok_bind]
    show (CPoly.add IntRat.cops a b >>= _) = _
    rw [e3, ok_bind]
  | @sub t u f g h1 h2 hs ih1 ih2 =>
    obtain ⟨_, e1, a, rfl, ha⟩ := ih1
    obtain ⟨_, e2, b, rfl, hb⟩ := ih2
    obtain ⟨c, e3, hc⟩ := sat_false.1 (subz_ok ha hb hs)
    refine ⟨.val c, ?_, _, rfl, hc⟩
    simp only [Expr.eval, e1, Bool.false_or, reduceCtorEq, decide_false, e2, ok_bind]
    show (CPoly.sub IntRat.cops a b >>= _) = _
    rw [e3, ok_bind]
  | @mul t u f g h1 h2 hs ih1 ih2 =>
    obtain ⟨_, e1, a, rfl, ha⟩ := ih1
    obtain ⟨_, e2, b, rfl, hb⟩ := ih2
    obtain ⟨c, e3, hc⟩ := sat_false.1 (mulz_ok ha hb hs)
    refine ⟨.val c, ?_, _, rfl, hc⟩
    simp only [Expr.eval, e1, Bool.false_or, reduceCtorEq, decide_false, e2, ok_bind]
    show (CPoly.mul IntRat.cops a b >>= _) = _
    rw [e3, ok_bind]

/-- C113: sums, differences and products are printed whenever the sizes are in range; the size of a polynomial is the sum of the absolute values of
its coefficients. -/
theorem C113_q_p_op_exact (hd : Derives scalarG .Q t ts) (hk : Tail k) {f : ℤ[X]} (h : Small t f) :
    Ends k (q_p_op (argv ts k)) (qpText (f.map (Int.castRingHom ℚ)) ++ ['\n']) := by
  obtain ⟨z, o, -, -, F⟩ := q_follows hd hk
  obtain ⟨_, e, a, rfl, ha⟩ := small_eval (z := z) (o := o) h
  refine F.ok ?_
  unfold calcOp
  rw [parse_derives (scalar_fits _ _ _ _ _) hd, e]
  simp only [ok_bind, VText.each, showAtom, q_show (rep_of_z ha)]

/-- C113, violated: unary minus of a polynomial of positive degree writes beyond the end of an array. -/
theorem C113_violated_minus {s : String} (hs : scalarG.IsLit s) {f : ℤ[X]} (h : QLit s.toList f) (hf : 0 < f.natDegree) :
    IsUb (q_p_op [['-'], s.toList]) := by
  have hd : Derives scalarG .Q (.un .uminus (.lit s)) ["-", s] := .ofC (.ofE (.ofT (.ofF (.neg (.ofP (.lit hs))))))
  obtain ⟨z, o, -, -, F⟩ := q_follows hd (k := []) (.inl rfl)
  refine F.ub (calc_neg (P := fun a => PRep IntRat.Rep a (f.map (Int.castRingHom ℚ))) hs ((qlit_read h).sat.mono fun r hr => ⟨rep_of_z hr.1, hr.2⟩)
    fun a ha => neg_ub IntRat.cops_ref ha ?_)
  rw [← ha.deg, natDegree_map_eq_of_injective (Int.castRingHom ℚ).injective_int]; exact hf

/-- C113, violated: what follows the digits and commas of an argument is ignored: of `1/2` the 1 is read, and of `1,0,-1` what `1,0` stands for. -/
theorem C113_violated_ignored {s : String} {cs rest : List Char} {c : Char} (hs : scalarG.IsLit s) (he : s.toList = cs ++ c :: rest) {f : ℤ[X]}
    (h : QWord cs f) (hc : isDig c = false) (hc' : c ≠ ',') : Prints (q_p_op [s.toList]) (qpText (f.map (Int.castRingHom ℚ)) ++ ['\n']) () := by
  have hd : Derives scalarG .Q (.lit s) [s] := .ofC (.ofE (.ofT (.ofF (.ofU (.ofP (.lit hs))))))
  exact (C113_q_p_op_exact hd (k := []) (.inl rfl) (.lit ⟨cs, c :: rest, he, h, by simp [hc, hc']⟩)).1 rfl

/-- C113, violated: of commas alone, memory is freed twice. -/
theorem C113_violated_commas {s : String} (hs : scalarG.IsLit s) (hne : s.toList ≠ []) (hc : ∀ c ∈ s.toList, c = ',') : IsUb (q_p_op [s.toList]) := by
  have hd : Derives scalarG .Q (.lit s) [s] := .ofC (.ofE (.ofT (.ofF (.ofU (.ofP (.lit hs))))))
  obtain ⟨z, o, -, -, F⟩ := q_follows hd (k := []) (.inl rfl)
  refine F.ub ?_
  unfold calcOp
  rw [parse_derives (scalar_fits _ _ _ _ _) hd]
  have hts : (s.toList.splitOnP (· == ',')).filter (· ≠ []) = [] := by
    rw [List.filter_eq_nil_iff]
    have : ∀ cs : List Char, (∀ c ∈ cs, c = ',') → ∀ t ∈ cs.splitOnP (· == ','), t = [] := by
      intro cs
      induction cs with
      | nil => simp
      | cons c cs ih =>
        intro hc
        obtain rfl := hc c (by simp)
        have := ih fun d hd => hc d (by simp [hd])
        rw [List.splitOnP_cons_eq_if_modifyHead]
        simpa using this
    intro t ht
    simp [this _ hc t ht]
  have hr : qpIO.read z s.toList = ub := by
    revert hne hc hts
    generalize s.toList = cs
    intro hne hc hts
    have hq : qFromString cs = ok .dangling := by
      refine (C93_q_list ?_ hts).2.2 rfl
      obtain ⟨c, l, rfl⟩ := List.exists_cons_of_ne_nil hne
      simp [hc c (by simp)]
    have h1 : cs.dropWhile Scan.blank = cs := by
      obtain ⟨c, l, rfl⟩ := List.exists_cons_of_ne_nil hne
      rw [hc c (by simp)]
      exact List.dropWhile_cons_of_neg (by decide)
    have h2 : cs.takeWhile fpChar = cs := by
      rw [List.takeWhile_eq_self_iff]
      intro c h
      rw [hc c h]; rfl
    show (qExtract z cs >>= _) = _
    unfold qExtract
    rw [h1]
    obtain ⟨c, l, rfl⟩ := List.exists_cons_of_ne_nil hne
    simp only [h2]
    rw [if_neg (by simp), hq]
    rfl
  simp only [Expr.eval, scalar, elt, hr]
  rfl

section examples

theorem word_12 : QWord "12".toList (X + C 2) := by
  refine ⟨by decide, by decide, .inl ⟨by decide, ?_⟩⟩
  have : ("12".toList.map fun c => (digVal c : ℤ)) = [1, 2] := by decide +kernel
  rw [this]
  simp [horner]

theorem lit_12 : scalarG.IsLit "12" := by simp [Gram.IsLit, scalarG, addTable]

/-- 12 stands for x + 2, and (x + 2)^2 has the size 9. -/
example : Prints (q_p_op ["12".toList, "*".toList, "12".toList]) (qpText (((X + C 2) * (X + C 2) : ℤ[X]).map (Int.castRingHom ℚ)) ++ ['\n']) () := by
  have hd : Derives scalarG .Q (.bin .mul (.lit "12") (.lit "12")) ["12", "*", "12"] :=
    .ofC (.ofE (.ofT (.mul (a := ["12"]) (b := ["12"]) (s := "*") (by simp [scalarG]) (.ofF (.ofU (.ofP (.lit lit_12)))) (.ofU (.ofP (.lit lit_12))))))
  have hl : QLit "12".toList (X + C 2) := ⟨"12".toList, [], by simp, word_12, by simp⟩
  have h1 := size_term 1 1
  have h2 := size_term 0 2
  have h3 := size_add_le X (C 2)
  have h0 := size_nonneg (X + C 2)
  simp only [C_1, one_mul, pow_one, pow_zero, mul_one, abs_one, Nat.abs_ofNat] at h1 h2
  have h4 : size (X + C 2) * size (X + C 2) ≤ 3 * 3 := mul_le_mul (by omega) (by omega) h0 (by norm_num)
  exact (C113_q_p_op_exact hd (k := []) (.inl rfl) (.mul (.lit hl) (.lit hl) (by omega))).1 rfl

example : Prints (q_p_op ["12".toList, "*".toList, "12".toList]) "1,4,4\n".toList () := by show _ = _; decide +kernel
example : Prints (q_p_op ["101".toList, "/".toList, "30".toList]) "1/3,0\n".toList () := by show _ = _; decide +kernel
example : Prints (q_p_op ["1/2".toList]) "1\n".toList () ∧ Prints (q_p_op ["1,0,-1".toList]) "1,0\n".toList () := by
  constructor <;> (show _ = _; decide +kernel)
example : IsUb (q_p_op ["-".toList, "12".toList]) ∧ IsUb (q_p_op [",".toList]) ∧ IsUb (q_p_op ["2147483647,".toList, "*".toList, "2".toList]) := by
  refine ⟨?_, ?_, ?_⟩ <;> (show _ = _; decide +kernel)
example : Prints (q_p_op ["-".toList, "5".toList]) "-5\n".toList () ∧ ThrowsC (q_p_op ["1".toList, "/".toList, "0".toList]) [] := by
  constructor <;> (show _ = _; decide +kernel)

end examples

end q

end Spffl.Props.Cmd113
