/-
Properties C49 (bit vectors), C50, C51, C52: bit_vector_t and bit_matrix_t over F2.

`BV.Rep v x` says that the object `v` holds the vector `x : Fin n → ZMod 2` (bit `i` of the packed words is `x i`,
padding bits are zero, the heap array is long enough); `BM.Rep A M` that every row of `A` holds the row of `M`.

`tm : TrimMask` is the value of the mask expression of `trim`.  Where a theorem takes
`∀ k, (tm k).Sat U fun _ => True`, the case `U = False` covers every machine on which the over-wide shifts yield
some value, whatever it is, and `tm = strictMask, U = True` the literal reading in which they are undefined.
-/
import Verif.Proof.BitMatrix

namespace Spffl.Props
open Res
namespace BM

variable {m n k : ℕ}

/-- a machine on which the mask expression has a value -/
theorem C50_some_mask (f : ℕ → BitVec 64) : ∀ k, ((fun n => ok (f n) : TrimMask) k).Sat False fun _ => True := fun _ => trivial

/-- C50: construction, element access, arithmetic, zero test, leading position. -/
theorem C50_vector_partial {a b : BV} {x y : Fin n → ZMod 2} (hn : 0 < n) (ha : BV.Rep a x) (hb : BV.Rep b y) :
    (∃ r, BV.alloc n = ok r ∧ BV.Rep r (0 : Fin n → ZMod 2)) ∧
    (∃ r, BV.add a b = ok r ∧ BV.Rep r (x + y)) ∧
    (∃ r, BV.sub a b = ok r ∧ BV.Rep r (x - y)) ∧
    (∃ r, BV.mul a b = ok r ∧ BV.Rep r (x * y)) ∧
    (∃ r, BV.dot a b = ok r ∧ (r = true ↔ ∑ i, x i * y i = 1)) ∧
    (∃ r, BV.xorAssign a b = ok r ∧ BV.Rep r (x + y)) ∧
    (∃ r, BV.is_zero a = ok r ∧ (r = true ↔ x = 0)) ∧
    (∃ r, BV.copy a = ok r ∧ BV.Rep r x) ∧
    (∀ s, ∃ r, BV.smul a s = ok r ∧ BV.Rep r ((if s then 1 else 0 : ZMod 2) • x)) := by
  refine ⟨BV.alloc_ok hn, BV.add_rep hn ha hb, BV.sub_rep hn ha hb, BV.mul_rep hn ha hb, ?_, BV.xorAssign_rep ha hb, BV.is_zero_rep ha, BV.copy_rep ha, fun s => BV.smul_rep ha s⟩
  obtain ⟨r, h1, h2⟩ := BV.dot_rep ha hb
  exact ⟨r, h1, by rw [← h2, b2_eq_one]⟩

/-- C50: element access inside the vector reads, writes and flips that element and no other; outside it throws. -/
theorem C50_access {v : BV} {x : Fin n → ZMod 2} (h : BV.Rep v x) (i : ℕ) :
    (∀ hi : i < n, (∃ r, BV.get v i = ok r ∧ (r = true ↔ x ⟨i, hi⟩ = 1)) ∧
      (∀ b, ∃ r, BV.set v i b = ok r ∧ BV.Rep r (Function.update x ⟨i, hi⟩ (if b then 1 else 0))) ∧
      ∃ r, BV.toggle_element v i = ok r ∧ BV.Rep r (Function.update x ⟨i, hi⟩ (x ⟨i, hi⟩ + 1))) ∧
    (n ≤ i → BV.get v i = throw ∧ ∀ b, BV.set v i b = throw) := by
  refine ⟨fun hi => ⟨?_, fun b => BV.set_rep h hi b, BV.toggle_rep h hi⟩, fun hi => ⟨BV.get_throw h hi, BV.set_throw h hi⟩⟩
  obtain ⟨r, h1, h2⟩ := BV.get_rep h hi
  exact ⟨r, h1, by rw [← h2, b2_eq_one]⟩

/-- C50: the leading position is the index of the first one, none exactly for the zero vector. -/
theorem C50_leader {v : BV} {x : Fin n → ZMod 2} (h : BV.Rep v x) :
    (x = 0 → BV.find_leader_pos v = ok none) ∧
    ∀ i : Fin n, x i = 1 → (∀ j, j < i → x j = 0) → BV.find_leader_pos v = ok (some (i : ℕ)) := by
  obtain ⟨r, h1, h2⟩ := BV.find_leader_rep h
  refine ⟨fun hx => ?_, fun i hi hz => ?_⟩
  · cases r with
    | none => exact h1
    | some p => obtain ⟨hp, h3, _⟩ := h2; rw [hx] at h3; exact absurd h3 (by simp)
  · cases r with
    | none =>
      have h2 : x = 0 := h2
      rw [h2] at hi; exact absurd hi (by simp)
    | some p =>
      obtain ⟨hp, h3, h4⟩ := h2
      rw [h1]
      rcases lt_trichotomy p (i : ℕ) with h | h | h
      · rw [hz ⟨p, hp⟩ h] at h3; exact absurd h3 (by simp)
      · rw [h]
      · rw [h4 i h] at hi; exact absurd hi (by simp)

/-- C50: vectors of different lengths: arithmetic throws, equality is false. -/
theorem C50_mismatch {a b : BV} (h : a.num_bits ≠ b.num_bits) :
    BV.add a b = throw ∧ BV.sub a b = throw ∧ BV.mul a b = throw ∧ BV.dot a b = throw ∧ BV.eq a b = ok false := by
  refine ⟨BV.binop_throw h, BV.binop_throw h, BV.binop_throw h, ?_, ?_⟩
  · unfold BV.dot BV.check_equal_lengths; rw [if_pos h, if_pos h]; rfl
  · unfold BV.eq; rw [if_pos h]

/-- every vector is held by an object; an object holds at most one vector -/
theorem C50_exists (hn : 0 < n) (x : Fin n → ZMod 2) : ∃ v, BV.Rep v x := BV.exists_rep x hn
theorem C50_functional {v : BV} {x y : Fin n → ZMod 2} (hx : BV.Rep v x) (hy : BV.Rep v y) : x = y := hx.functional hy

/-- What `==` computes: the entries in all words but the last are compared. -/
theorem C50_eq_computes {a b : BV} {x y : Fin n → ZMod 2} (ha : BV.Rep a x) (hb : BV.Rep b y) :
    ∃ r, BV.eq a b = ok r ∧ (r = true ↔ ∀ i : Fin n, (i : ℕ) < (n - 1) / 64 * 64 → x i = y i) := by
  obtain ⟨r, h1, h2⟩ := BV.eq_rep ha hb
  refine ⟨r, h1, h2.trans (forall_congr' fun i => ?_)⟩
  have := i.2
  rw [show 64 * (BV.nwords n - 1) = (n - 1) / 64 * 64 by unfold BV.nwords; omega]

/-- C50 fails for equality at every length: there are two different vectors that compare equal. -/
theorem C50_violated_eq (hn : 0 < n) : ∃ (a b : BV) (x y : Fin n → ZMod 2), BV.Rep a x ∧ BV.Rep b y ∧ x ≠ y ∧ BV.eq a b = ok true := by
  obtain ⟨a, ha⟩ := BV.exists_rep (0 : Fin n → ZMod 2) hn
  obtain ⟨b, hb⟩ := BV.exists_rep (Function.update (0 : Fin n → ZMod 2) ⟨n - 1, by omega⟩ 1) hn
  refine ⟨a, b, _, _, ha, hb, fun h => ?_, ?_⟩
  · have := congrFun h ⟨n - 1, by omega⟩
    simp at this
  · obtain ⟨r, h1, h2⟩ := C50_eq_computes ha hb
    rw [h1]
    congr 1
    refine h2.mpr fun i hi => ?_
    rw [Function.update_of_ne]
    rintro rfl
    simp only at hi; omega

/-- C50: filling with zeros gives the zero vector. -/
theorem C50_fill_zero {U : Prop} {tm : TrimMask} (H : ∀ k, (tm k).Sat U fun _ => True) (hn : 0 < n) :
    (BV.fill tm false n).Sat U (fun r => BV.Rep r (0 : Fin n → ZMod 2)) := BV.fill_zero H hn

/-- C50: filling with ones is right when the length is a multiple of 64. -/
theorem C50_fill_one_partial {tm : TrimMask} (hk : 0 < k) :
    ∃ r, BV.fill tm true (64 * k : ℕ) = ok r ∧ BV.Rep r (fun _ : Fin (64 * k) => (1 : ZMod 2)) := BV.fill_one hk

/-- C50 fails for fill construction at every other length: the mask expression shifts an int too far. -/
theorem C50_violated_fill (b : Bool) (hn : n % 64 ≠ 0) (hb : n ≤ 2147483584) : BV.fill strictMask b n = ub := by
  unfold BV.fill
  rw [if_neg (by omega)]
  simp only [Int.toNat_natCast]
  obtain ⟨r, e1, e2, _⟩ := BV.storeLoop_ok (body := fun i ws => wr ws i (if b = true then ~~~0#64 else 0#64)) (f := fun _ => if b = true then ~~~0#64 else 0#64)
    (ws := List.replicate (BV.nwords n) 0#64) (N := BV.nwords n) (by simp) (fun i s hi hl _ => by rw [wr_ok (by simp at hl; omega)])
  rw [e1, ok_bind]
  unfold BV.trim
  rw [if_neg (by simp only [BV.nwords]; omega), BV.strictMask_ub (by omega) hn hb]; rfl

/-- the vectors (1,0,1) and (1,1,0), and a vector of 70 bits -/
def exA : BV := ⟨false, [0xA000000000000000#64], 1, 3⟩
def exB : BV := ⟨false, [0xC000000000000000#64], 1, 3⟩
def exC : BV := ⟨false, [0x8000000000000001#64, 0x0400000000000000#64], 2, 70⟩

example : BV.Rep exA (![1, 0, 1] : Fin 3 → ZMod 2) :=
  ⟨rfl, rfl, rfl, by decide, by decide, fun k h1 h2 => by
    have h2 : k < 64 := h2
    interval_cases k <;> rfl⟩
example : BV.add exA exB = ok ⟨false, [0x6000000000000000#64], 1, 3⟩ := by decide +kernel
example : BV.dot exA exB = ok true := by decide +kernel
example : BV.dot exA exA = ok false := by decide +kernel
example : BV.eq exA exB = ok true := by decide +kernel
example : BV.find_leader_pos exC = ok (some 0) := by decide +kernel
example : BV.get exC 69 = ok true ∧ BV.get exC 68 = ok false ∧ BV.get exC 63 = ok true ∧ BV.get exC 70 = throw := by decide +kernel
example : BV.fill strictMask true 64 = ok ⟨false, [0xFFFFFFFFFFFFFFFF#64], 1, 64⟩ := by decide +kernel
example : BV.fill strictMask true 3 = ub := by decide +kernel
example : BV.toggle_element exC 64 = ok ⟨false, [0x8000000000000001#64, 0x8400000000000000#64], 2, 70⟩ := by decide +kernel

/-! ### C49: assignment of bit vectors -/

/-- C49 for bit vectors, the part that holds: the destination is default constructed or has an array with enough words. -/
theorem C49_bit_vector_partial {o v : BV} {x : Fin n → ZMod 2} (h : BV.Rep v x) (ho : o.null = true ∨ BV.nwords n ≤ o.words.length) :
    ∃ r, BV.assign o v = ok r ∧ BV.Rep r x := BV.assign_rep h ho

/-- C49 fails in every other case: the words are copied past the end of the old array. -/
theorem C49_bit_vector_violated {o v : BV} {x : Fin n → ZMod 2} (h : BV.Rep v x) (ho : o.null = false) (hl : o.words.length < BV.nwords n) :
    BV.assign o v = ub := by
  unfold BV.assign
  simp only [lt_irrefl, if_false, ho, Bool.false_eq_true]
  have : BV.copyWords o.words v.words v.num_words = ub := by
    unfold BV.copyWords
    rw [h.nw]
    have hlen := h.len
    have key : ∀ c, c ≤ o.words.length → ∃ d, loopUp (fun i d => store d i (rd v.words i)) c 0 o.words = ok d ∧ d.length = o.words.length := by
      intro c hc
      obtain ⟨d, h1, h2, _⟩ := BV.copyWords_ok (dst := o.words) (src := v.words) (N := c) hc (by omega)
      exact ⟨d, h1, h2⟩
    have split : ∀ (body : ℕ → List (BitVec 64) → Res (List (BitVec 64))) (a b lo : ℕ) s, loopUp body (a + b) lo s =
        (loopUp body a lo s >>= fun s => loopUp body b (lo + a) s) := by
      intro body a
      induction a with
      | zero => intro b lo s; simp [loopUp]
      | succ a ih =>
        intro b lo s
        rw [show a + 1 + b = (a + b) + 1 by omega]
        show (body lo s >>= fun s' => loopUp body (a + b) (lo + 1) s') =
          ((body lo s >>= fun s' => loopUp body a (lo + 1) s') >>= fun s => loopUp body b (lo + (a + 1)) s)
        rw [bind_assoc]
        congr 1
        funext s'
        rw [ih, show lo + 1 + a = lo + (a + 1) by omega]
    unfold forUp
    obtain ⟨d, h1, h2⟩ := key o.words.length le_rfl
    rw [show BV.nwords n - 0 = o.words.length + (BV.nwords n - o.words.length - 1 + 1) by omega, split, h1, ok_bind]
    unfold loopUp store
    rw [rd_ok (by omega)]
    simp only [ok_bind]
    unfold wr
    rw [if_neg (by omega)]; rfl
  rw [this]; rfl

example : BV.assign exC exA = ok ⟨false, [0xA000000000000000#64, 0x0400000000000000#64], 1, 3⟩ := by decide +kernel
example : BV.assign exA exC = ub := by decide +kernel

/-! ### C51: matrices -/

/-- every matrix is held by an object; an object holds at most one matrix -/
theorem C51_exists (hn : 0 < n) (M : Matrix (Fin m) (Fin n) (ZMod 2)) : ∃ A, BM.Rep A M := by
  choose f hf using fun i => BV.exists_rep (M i) hn
  exact ⟨⟨m, n, List.ofFn f⟩, rfl, rfl, by simp, fun i => ⟨f i, by simp, hf i⟩⟩

theorem C51_functional {A : BM} {M N : Matrix (Fin m) (Fin n) (ZMod 2)} (hM : BM.Rep A M) (hN : BM.Rep A N) : M = N := by
  funext i
  obtain ⟨v, h1, h2⟩ := hM.row i
  obtain ⟨w, h3, h4⟩ := hN.row i
  rw [h1] at h3; cases h3
  exact h2.functional h4

/-- C51: row reduction returns a row echelon form of the matrix (the same row space, `P * M` for an invertible `P`). -/
theorem C51_row_reduce {A : BM} {M : Matrix (Fin m) (Fin n) (ZMod 2)} (hA : BM.Rep A M) :
    ∃ r, BM.row_reduce_below A = ok r ∧ ∃ (M' : Matrix (Fin m) (Fin n) (ZMod 2)), BM.Rep r M' ∧
      (∃ rk p, IsEchelon M' rk p) ∧ ∃ P : Matrix (Fin m) (Fin m) (ZMod 2), IsUnit P ∧ M' = P * M := by
  obtain ⟨r, h1, M', h2, h3, h4⟩ := BM.rr_rep hA
  exact ⟨r, h1, M', h2, h4, h3.unit⟩

/-- C51: row_echelon_form returns the reduced row echelon form. -/
theorem C51_row_echelon_form {A : BM} {M : Matrix (Fin m) (Fin n) (ZMod 2)} (hA : BM.Rep A M) :
    ∃ r, BM.row_echelon_form A = ok r ∧ ∃ (M' : Matrix (Fin m) (Fin n) (ZMod 2)), BM.Rep r M' ∧
      (∃ rk p, IsReduced M' rk p) ∧ ∃ P : Matrix (Fin m) (Fin m) (ZMod 2), IsUnit P ∧ M' = P * M := BM.ref_rep hA

/-- C51: the rank. -/
theorem C51_rank {A : BM} {M : Matrix (Fin m) (Fin n) (ZMod 2)} (hA : BM.Rep A M) : BM.get_rank A = ok M.rank := BM.rank_rep hA

/-- C51: the kernel basis: linearly independent vectors spanning the kernel; "no basis" exactly when the kernel is zero. -/
theorem C51_kernel {U : Prop} {tm : TrimMask} (H : ∀ k, (tm k).Sat U fun _ => True) {A : BM} {M : Matrix (Fin m) (Fin n) (ZMod 2)} (hn : 0 < n) (hA : BM.Rep A M) :
    (BM.get_kernel_basis tm A).Sat U (fun r => match r with
      | none => ∀ x, M.mulVec x = 0 → x = 0
      | some B => ∃ (d : ℕ) (K : Matrix (Fin d) (Fin n) (ZMod 2)), 0 < d ∧ BM.Rep B K ∧ LinearIndependent (ZMod 2) (fun i => K i) ∧
          ∀ x, x ∈ Submodule.span (ZMod 2) (Set.range fun i => K i) ↔ M.mulVec x = 0) := by
  refine (BM.kernel_sat H hn hA).mono fun r hr => ?_
  cases r with
  | none =>
    have hr : LinearMap.ker M.mulVecLin = ⊥ := hr
    intro x hx
    have : x ∈ LinearMap.ker M.mulVecLin := by simpa using hx
    rw [hr] at this; simpa using this
  | some B =>
    obtain ⟨d, _, h0, K, h1, h2, h3⟩ := hr
    exact ⟨d, K, h0, h1, h2, fun x => by rw [h3]; simp⟩

/-- C51 on any machine where the mask expression has some value: the kernel is always found. -/
theorem C51_kernel_total (f : ℕ → BitVec 64) {A : BM} {M : Matrix (Fin m) (Fin n) (ZMod 2)} (hn : 0 < n) (hA : BM.Rep A M) :
    (BM.get_kernel_basis (fun k => ok (f k)) A).Ok (fun r => match r with
      | none => ∀ x, M.mulVec x = 0 → x = 0
      | some B => ∃ (d : ℕ) (K : Matrix (Fin d) (Fin n) (ZMod 2)), 0 < d ∧ BM.Rep B K ∧ LinearIndependent (ZMod 2) (fun i => K i) ∧
          ∀ x, x ∈ Submodule.span (ZMod 2) (Set.range fun i => K i) ↔ M.mulVec x = 0) :=
  (sat_false.mp (C51_kernel (C50_some_mask f) hn hA)).mono fun r hr => by cases r <;> exact hr

/-- C51: determinant, zero and identity tests, transposition, sum, product, powers. -/
theorem C51_square {A : BM} {M : Matrix (Fin n) (Fin n) (ZMod 2)} (hA : BM.Rep A M) :
    (∃ b, BM.det A = ok b ∧ (b = true ↔ M.det = 1)) ∧
    (∃ b, BM.is_I A = ok b ∧ (b = true ↔ M = 1)) ∧
    (∃ b, BM.is_zero A = ok b ∧ (b = true ↔ M = 0)) ∧
    (∃ C, BM.make_I A = ok C ∧ BM.Rep C (1 : Matrix (Fin n) (Fin n) (ZMod 2))) ∧
    ∀ s, ∃ C, BM.addScalar A s = ok C ∧ BM.Rep C (M + (if s then 1 else 0 : ZMod 2) • 1) := by
  refine ⟨?_, BM.is_I_rep hA, BM.is_zero_rep hA, BM.make_I_rep hA, fun s => ?_⟩
  · obtain ⟨b, h1, h2⟩ := BM.det_rep hA
    exact ⟨b, h1, by rw [← h2, b2_eq_one]⟩
  · obtain ⟨C, h1, h2⟩ := BM.addScalar_rep hA s
    refine ⟨C, h1, cast ?_ h2⟩
    congr 2
    cases s <;> simp

theorem C51_arith {U : Prop} {tm : TrimMask} (H : ∀ k, (tm k).Sat U fun _ => True) {A A' B : BM} {v : BV} {M M' : Matrix (Fin m) (Fin k) (ZMod 2)}
    {N : Matrix (Fin k) (Fin n) (ZMod 2)} {x : Fin k → ZMod 2} (hm : 0 < m) (hk : 0 < k) (hn : 0 < n) (hA : BM.Rep A M) (hA' : BM.Rep A' M')
    (hB : BM.Rep B N) (hv : BV.Rep v x) :
    (∃ C, BM.add A A' = ok C ∧ BM.Rep C (M + M')) ∧
    (∃ C, BM.transpose A = ok C ∧ BM.Rep C M.transpose) ∧
    (BM.mul tm A B).Sat U (fun C => BM.Rep C (M * N)) ∧
    (BM.mulVec tm A v).Sat U (fun r => BV.Rep r (M.mulVec x)) :=
  ⟨BM.add_rep hm hk hA hA', BM.transpose_rep hm hk hA, BM.mul_sat H hm hk hn hA hB, BM.mulVec_sat H hm hA hv⟩

/-- C51: positive powers. -/
theorem C51_power {U : Prop} {tm : TrimMask} (H : ∀ k, (tm k).Sat U fun _ => True) {A : BM} {M : Matrix (Fin n) (Fin n) (ZMod 2)} (hn : 0 < n)
    (hA : BM.Rep A M) {e : Int} (he : InInt e) (he1 : 1 ≤ e) :
    (BM.exp tm A e).Sat U (fun r => ∃ B, r = some B ∧ BM.Rep B (M ^ e.toNat)) := BM.exp_pos_sat H hn hA he he1

/-- The literal reading of `trim` makes every kernel computation with a kernel undefined, unless the number of columns is a
multiple of 64. -/
theorem C51_violated_strict {A : BM} {M : Matrix (Fin m) (Fin n) (ZMod 2)} (hA : BM.Rep A M) (hk : M.rank < n) (h64 : n % 64 ≠ 0) (hb : n ≤ 2147483584) :
    BM.get_kernel_basis strictMask A = ub := by
  unfold BM.get_kernel_basis
  obtain ⟨C, c1, c2⟩ := BM.copy_rep hA
  obtain ⟨B, b1, M', hB, ⟨rk, p, hred⟩, hR⟩ := BM.ref_rep c2
  have hrank : M.rank = rk := by rw [← hR.rank, hred.toIsEchelon.rank_eq]
  rw [c1, ok_bind, b1, ok_bind, BM.rank_rr_rep hB hred.toIsEchelon, ok_bind, hB.nc]
  simp only
  rw [if_neg (by omega)]
  have : BM.fill strictMask false ((n - rk : ℕ) : ℤ) (n : ℤ) = ub := by
    unfold BM.fill
    rw [if_neg (by omega)]
    simp only [Int.toNat_natCast]
    obtain ⟨d, hd⟩ : ∃ d, n - rk = d + 1 := ⟨n - rk - 1, by omega⟩
    rw [hd]
    unfold forUp
    show (loopUp _ (d + 1) 0 _ >>= _) = ub
    unfold loopUp
    rw [C50_violated_fill false h64 hb]; rfl
  rw [this]; rfl

def exM : BM := ⟨3, 3, [exA, exB, ⟨false, [0x6000000000000000#64], 1, 3⟩]⟩
/-- on a machine where the mask is 5 -/
def exTm : TrimMask := fun _ => ok 5#64

example : BM.get_rank exM = ok 2 := by decide +kernel
example : BM.det exM = ok false := by decide +kernel
example : BM.get_kernel_basis exTm exM = ok (some ⟨1, 3, [⟨false, [0xE000000000000000#64], 1, 3⟩]⟩) := by decide +kernel
example : BM.get_kernel_basis strictMask exM = ub := by decide +kernel
example : BM.mul exTm exM exM = ok ⟨3, 3, [⟨false, [0xC000000000000000#64], 1, 3⟩, ⟨false, [0x6000000000000000#64], 1, 3⟩, ⟨false, [0xA000000000000000#64], 1, 3⟩]⟩ := by decide +kernel
example : BM.exp exTm exM 3 = ok (some ⟨3, 3, [⟨false, [0x6000000000000000#64], 1, 3⟩, ⟨false, [0xA000000000000000#64], 1, 3⟩, ⟨false, [0xC000000000000000#64], 1, 3⟩]⟩) := by decide +kernel
example : BM.row_echelon_form exM = ok ⟨3, 3, [⟨false, [0xA000000000000000#64], 1, 3⟩, ⟨false, [0x6000000000000000#64], 1, 3⟩, ⟨false, [0x0#64], 1, 3⟩]⟩ := by decide +kernel

/-! ### C52: the inverse -/

/-- C52 fails for every square matrix, invertible or not: `inverse` throws, because `paste` writes to column
`num_rows + j` of rows that have shrunk to `num_cols` entries. -/
theorem C52_violated {A : BM} {M : Matrix (Fin n) (Fin n) (ZMod 2)} (hn : 0 < n) (hA : BM.Rep A M) : BM.inverse A = throw :=
  BM.inverse_throw hn hA

/-- Consequently the zeroth and negative powers throw too. -/
theorem C52_violated_exp {tm : TrimMask} {A : BM} {M : Matrix (Fin n) (Fin n) (ZMod 2)} (hn : 0 < n) (hA : BM.Rep A M) {e : Int} (he : e ≤ 0) :
    BM.exp tm A e = throw := BM.exp_nonpos_throw hn hA he

/-- The outer product of two non-empty vectors throws. -/
theorem C52_violated_outer {u v : BV} {x : Fin m → ZMod 2} {y : Fin n → ZMod 2} (hm : 0 < m) (hn : 0 < n) (hu : BV.Rep u x) (hv : BV.Rep v y) :
    BM.outer u v = throw := by
  unfold BM.outer
  rw [hu.nb, hv.nb]
  obtain ⟨m, rfl⟩ : ∃ k, m = k + 1 := ⟨m - 1, by omega⟩
  obtain ⟨n, rfl⟩ : ∃ k, n = k + 1 := ⟨n - 1, by omega⟩
  obtain ⟨a, a1, _⟩ := BV.get_rep hu (i := 0) (by omega)
  obtain ⟨b, b1, _⟩ := BV.get_rep hv (i := 0) (by omega)
  have : ∀ (body : ℕ → BM → Res BM) (k : ℕ) (s : BM), body 0 s = throw → forUp 0 (k + 1) s body = throw := by
    intro body k s h
    unfold forUp
    show loopUp body (k + 1) 0 s = throw
    unfold loopUp
    rw [h]; rfl
  refine this _ _ _ (this _ _ _ ?_)
  rw [a1, ok_bind, b1, ok_bind]; rfl

example : BM.inverse ⟨2, 2, [⟨false, [0x8000000000000000#64], 1, 2⟩, ⟨false, [0x4000000000000000#64], 1, 2⟩]⟩ = throw := by decide +kernel

end BM
end Spffl.Props
