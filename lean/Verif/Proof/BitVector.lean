/-
bit_vector_t refines vectors over F2.
-/
import Verif.Model.BitVector
import Verif.Proof.F2Poly2
import Verif.Base.Sat

namespace Spffl
open Res
open F2P (g rd_g g_set g_of_le g_replicate)

/-- a bit as an element of F2 -/
def b2 (b : Bool) : ZMod 2 := if b then 1 else 0

@[simp] theorem b2_true : b2 true = 1 := rfl
@[simp] theorem b2_false : b2 false = 0 := rfl
theorem b2_inj {a b : Bool} : b2 a = b2 b ↔ a = b := by cases a <;> cases b <;> simp
theorem b2_eq_zero {a : Bool} : b2 a = 0 ↔ a = false := b2_inj (b := false)
theorem b2_eq_one {a : Bool} : b2 a = 1 ↔ a = true := b2_inj (b := true)
theorem b2_ne_zero {a : Bool} : b2 a ≠ 0 ↔ a = true := by cases a <;> simp
theorem b2_xor (a b : Bool) : b2 (a ^^ b) = b2 a + b2 b := by cases a <;> cases b <;> decide
theorem b2_and (a b : Bool) : b2 (a && b) = b2 a * b2 b := by cases a <;> cases b <;> decide
theorem zmod2_cases (x : ZMod 2) : x = 0 ∨ x = 1 := by revert x; decide
theorem zmod2_ne_zero {x : ZMod 2} : x ≠ 0 ↔ x = 1 := by revert x; decide
theorem zmod2_neg (x : ZMod 2) : -x = x := by revert x; decide
theorem zmod2_sub (x y : ZMod 2) : x - y = x + y := by revert x y; decide

namespace BV

/-- bit `k` of the stored words -/
def bit (ws : List (BitVec 64)) (k : ℕ) : Bool := (g ws (k / 64)).getLsbD (63 - k % 64)

/-- `v` holds the vector `x`; the bits past the end of the last word are zero. -/
structure Rep {n : ℕ} (v : BV) (x : Fin n → ZMod 2) : Prop where
  nn : v.null = false
  nb : v.num_bits = n
  nw : v.num_words = nwords n
  len : nwords n ≤ v.words.length
  bit : ∀ i : Fin n, b2 (BV.bit v.words i) = x i
  pad : ∀ k, n ≤ k → k < 64 * nwords n → BV.bit v.words k = false

theorem nwords_le (n : ℕ) : n ≤ 64 * nwords n := by unfold nwords; omega
theorem div_lt {n k : ℕ} (h : k < n) : k / 64 < nwords n := by unfold nwords; omega

theorem bit_set {ws : List (BitVec 64)} {i k : ℕ} {w : BitVec 64} (h : i < ws.length) :
    bit (ws.set i w) k = if k / 64 = i then w.getLsbD (63 - k % 64) else bit ws k := by
  unfold bit
  rw [g_set h]
  split <;> rfl

theorem bit_word (ws : List (BitVec 64)) {j b : ℕ} (hb : b < 64) : bit ws (64 * j + (63 - b)) = (g ws j).getLsbD b := by
  unfold bit
  rw [show (64 * j + (63 - b)) / 64 = j by omega, show 63 - (64 * j + (63 - b)) % 64 = b by omega]

theorem one_shl {s t : ℕ} (hs : s < 64) : (1#64 <<< s).getLsbD t = decide (t = s) := by
  rw [BitVec.getLsbD_shiftLeft]
  by_cases h : t = s
  · subst h; simp [hs]
  · rcases Nat.lt_or_ge t s with h1 | h1
    · simp [h, h1]
    · have : 0 < t - s := by omega
      have e : (1#64).getLsbD (t - s) = false := by
        rw [BitVec.getLsbD_one]; simp; omega
      simp [h, e]

theorem shr_one (w : BitVec 64) (s : ℕ) : (decide ((w >>> s) &&& 1#64 ≠ 0#64)) = w.getLsbD s := by
  have h : ((w >>> s) &&& 1#64) = if w.getLsbD s then 1#64 else 0#64 := by
    apply BitVec.eq_of_getLsbD_eq
    intro i hi
    rw [BitVec.getLsbD_and, BitVec.getLsbD_ushiftRight, BitVec.getLsbD_one]
    by_cases h0 : i = 0
    · subst h0; cases hw : w.getLsbD s <;> simp [hw]
    · cases hw : w.getLsbD s <;> simp [h0, BitVec.getLsbD_one]
  rw [h]
  cases w.getLsbD s <;> simp

theorem getBit_ok {ws : List (BitVec 64)} {i : ℕ} (h : i / 64 < ws.length) : getBit ws i = ok (bit ws i) := by
  unfold getBit
  rw [rd_g h, ok_bind, shr_one]; rfl

theorem idx_eq {i k : ℕ} : (k / 64 = i / 64 ∧ 63 - k % 64 = 63 - i % 64) ↔ k = i := by omega

theorem setBit_ok {ws : List (BitVec 64)} {i : ℕ} (h : i / 64 < ws.length) :
    ∃ r, setBit ws i = ok r ∧ r.length = ws.length ∧ ∀ k, bit r k = if k = i then true else bit ws k := by
  unfold setBit
  rw [rd_g h, ok_bind, wr_ok h]
  refine ⟨_, rfl, by simp, fun k => ?_⟩
  rw [bit_set h]
  split
  · rename_i hk
    rw [BitVec.getLsbD_or, one_shl (by omega)]
    by_cases he : k = i
    · simp [he]
    · have : ¬ (63 - k % 64 = 63 - i % 64) := fun h => he (idx_eq.mp ⟨hk, h⟩)
      simp [he, this, bit, hk]
  · rename_i hk
    rw [if_neg (by rintro rfl; exact hk rfl)]

theorem clearBit_ok {ws : List (BitVec 64)} {i : ℕ} (h : i / 64 < ws.length) :
    ∃ r, clearBit ws i = ok r ∧ r.length = ws.length ∧ ∀ k, bit r k = if k = i then false else bit ws k := by
  unfold clearBit
  rw [rd_g h, ok_bind, wr_ok h]
  refine ⟨_, rfl, by simp, fun k => ?_⟩
  rw [bit_set h]
  split
  · rename_i hk
    rw [BitVec.getLsbD_and, BitVec.getLsbD_not, one_shl (by omega)]
    by_cases he : k = i
    · simp [he]
    · have : ¬ (63 - k % 64 = 63 - i % 64) := fun h => he (idx_eq.mp ⟨hk, h⟩)
      have h2 : 63 - k % 64 < 64 := by omega
      simp [he, this, bit, hk, h2]
  · rename_i hk
    rw [if_neg (by rintro rfl; exact hk rfl)]

theorem toggleBit_ok {ws : List (BitVec 64)} {i : ℕ} (h : i / 64 < ws.length) :
    ∃ r, toggleBit ws i = ok r ∧ r.length = ws.length ∧ ∀ k, bit r k = if k = i then !bit ws k else bit ws k := by
  unfold toggleBit
  rw [rd_g h, ok_bind, wr_ok h]
  refine ⟨_, rfl, by simp, fun k => ?_⟩
  rw [bit_set h]
  split
  · rename_i hk
    rw [BitVec.getLsbD_xor, one_shl (by omega)]
    by_cases he : k = i
    · simp [he, bit]
    · have : ¬ (63 - k % 64 = 63 - i % 64) := fun h => he (idx_eq.mp ⟨hk, h⟩)
      simp [he, this, bit, hk]
  · rename_i hk
    rw [if_neg (by rintro rfl; exact hk rfl)]

variable {n : ℕ} {U : Prop}

theorem bit_zeros (m k : ℕ) : bit (List.replicate m 0#64) k = false := by
  unfold bit
  rw [show (0#64 : BitVec 64) = 0 from rfl, g_replicate]; simp

theorem alloc_ok (hn : 0 < n) : ∃ v, alloc (n : ℤ) = ok v ∧ Rep v (0 : Fin n → ZMod 2) := by
  unfold alloc
  rw [if_neg (by omega)]
  refine ⟨_, rfl, rfl, by simp, by simp, by simp, fun i => ?_, fun k _ _ => ?_⟩
  · simp [bit_zeros]
  · simp [bit_zeros]

/-! ### element access -/

theorem Rep.inb {v : BV} {x : Fin n → ZMod 2} (h : Rep v x) {i : ℕ} (hi : i < n) : i / 64 < v.words.length :=
  (div_lt hi).trans_le h.len

theorem getBit_rep {v : BV} {x : Fin n → ZMod 2} (h : Rep v x) {i : ℕ} (hi : i < n) :
    ∃ b, getBit v.words i = ok b ∧ b2 b = x ⟨i, hi⟩ :=
  ⟨_, getBit_ok (h.inb hi), h.bit ⟨i, hi⟩⟩

theorem get_rep {v : BV} {x : Fin n → ZMod 2} (h : Rep v x) {i : ℕ} (hi : i < n) :
    ∃ b, get v i = ok b ∧ b2 b = x ⟨i, hi⟩ := by
  unfold get
  rw [if_neg (by rw [h.nb]; omega)]
  exact getBit_rep h hi

theorem get_throw {v : BV} {x : Fin n → ZMod 2} (h : Rep v x) {i : ℕ} (hi : n ≤ i) : get v i = throw := by
  unfold get
  rw [if_pos (by rw [h.nb]; exact hi)]

theorem set_rep {v : BV} {x : Fin n → ZMod 2} (h : Rep v x) {i : ℕ} (hi : i < n) (b : Bool) :
    ∃ r, set v i b = ok r ∧ Rep r (Function.update x ⟨i, hi⟩ (b2 b)) := by
  unfold set
  rw [if_neg (by rw [h.nb]; omega)]
  have key : ∃ ws, (if b then setBit v.words i else clearBit v.words i) = ok ws ∧ ws.length = v.words.length ∧
      ∀ k, bit ws k = if k = i then b else bit v.words k := by
    cases b
    · simpa using clearBit_ok (h.inb hi)
    · simpa using setBit_ok (h.inb hi)
  obtain ⟨ws, h1, h2, h3⟩ := key
  rw [h1]
  refine ⟨_, rfl, h.nn, h.nb, h.nw, by simpa [h2] using h.len, fun j => ?_, fun k hk hk' => ?_⟩
  · simp only [h3]
    by_cases hj : j = ⟨i, hi⟩
    · subst hj; simp
    · rw [if_neg (fun h => hj (Fin.ext h)), Function.update_of_ne hj]; exact h.bit j
  · simp only [h3]
    rw [if_neg (by omega)]; exact h.pad k hk hk'

theorem set_throw {v : BV} {x : Fin n → ZMod 2} (h : Rep v x) {i : ℕ} (hi : n ≤ i) (b : Bool) : set v i b = throw := by
  unfold set
  rw [if_pos (by rw [h.nb]; exact hi)]

theorem toggle_rep {v : BV} {x : Fin n → ZMod 2} (h : Rep v x) {i : ℕ} (hi : i < n) :
    ∃ r, toggle_element v i = ok r ∧ Rep r (Function.update x ⟨i, hi⟩ (x ⟨i, hi⟩ + 1)) := by
  unfold toggle_element
  rw [if_neg (by rw [h.nb]; omega)]
  obtain ⟨ws, h1, h2, h3⟩ := toggleBit_ok (h.inb hi)
  rw [h1]
  refine ⟨_, rfl, h.nn, h.nb, h.nw, by simpa [h2] using h.len, fun j => ?_, fun k hk hk' => ?_⟩
  · simp only [h3]
    by_cases hj : j = ⟨i, hi⟩
    · subst hj
      simp only [if_true, Function.update_self]
      rw [← h.bit ⟨i, hi⟩, ← b2_true, ← b2_xor]; simp
    · rw [if_neg (fun h => hj (Fin.ext h)), Function.update_of_ne hj]; exact h.bit j
  · simp only [h3]
    rw [if_neg (by omega)]; exact h.pad k hk hk'

/-! ### loops over words -/

/-- a loop storing `f i` into word `i` for `i < N` -/
theorem storeLoop_ok {body : ℕ → List (BitVec 64) → Res (List (BitVec 64))} {f : ℕ → BitVec 64} {N : ℕ} {ws : List (BitVec 64)}
    (hN : N ≤ ws.length)
    (hb : ∀ i s, i < N → s.length = ws.length → (∀ j, i ≤ j → g s j = g ws j) → body i s = ok (s.set i (f i))) :
    ∃ r, forUp 0 N ws body = ok r ∧ r.length = ws.length ∧ ∀ j, g r j = if j < N then f j else g ws j := by
  have := forUp_ok (body := body) (fun i s => s.length = ws.length ∧ ∀ j, g s j = if j < i then f j else g ws j) (Nat.zero_le N)
    (s := ws) ⟨rfl, fun j => by simp⟩ (fun i s _ hi ⟨h1, h2⟩ => by
      rw [hb i s hi h1 (fun j hj => by rw [h2, if_neg (by omega)]), Ok_ok]
      refine ⟨by simpa using h1, fun j => ?_⟩
      rw [g_set (by omega), h2]
      split_ifs <;> first | (exfalso; omega) | rfl | simp_all)
  exact this

theorem bit_of_g {r : List (BitVec 64)} {N : ℕ} {f : ℕ → BitVec 64} (h : ∀ j, j < N → g r j = f j) {k : ℕ} (hk : k < 64 * N) :
    bit r k = (f (k / 64)).getLsbD (63 - k % 64) := by
  unfold bit; rw [h _ (by omega)]

theorem copyWords_ok {dst src : List (BitVec 64)} {N : ℕ} (h1 : N ≤ dst.length) (h2 : N ≤ src.length) :
    ∃ r, copyWords dst src N = ok r ∧ r.length = dst.length ∧ ∀ k, k < 64 * N → bit r k = bit src k := by
  unfold copyWords
  obtain ⟨r, e1, e2, e3⟩ := storeLoop_ok (body := fun i d => store d i (rd src i)) (f := fun i => g src i) h1
    (fun i s hi hl _ => by
      unfold store; rw [rd_g (by omega)]; simp only [ok_bind]; rw [wr_ok (by omega)])
  refine ⟨r, e1, e2, fun k hk => ?_⟩
  rw [bit_of_g (N := N) (fun j hj => by rw [e3, if_pos hj]) hk]; rfl

theorem copy_rep {v : BV} {x : Fin n → ZMod 2} (h : Rep v x) : ∃ r, copy v = ok r ∧ Rep r x := by
  unfold copy
  obtain ⟨ws, h1, h2, h3⟩ := copyWords_ok (dst := List.replicate v.num_words 0#64) (src := v.words) (N := v.num_words)
    (by simp) (by rw [h.nw]; exact h.len)
  rw [h1]
  rw [h.nw] at h3
  have := nwords_le n
  refine ⟨_, rfl, rfl, h.nb, h.nw, by simp [h2, h.nw], fun i => ?_, fun k hk hk' => ?_⟩
  · rw [h3 _ (by have := i.2; omega)]; exact h.bit i
  · rw [h3 _ hk']; exact h.pad k hk hk'

/-- assignment into a null vector or one with enough storage -/
theorem assign_rep {v : BV} {x : Fin n → ZMod 2} (h : Rep v x) {o : BV} (ho : o.null = true ∨ nwords n ≤ o.words.length) :
    ∃ r, assign o v = ok r ∧ Rep r x := by
  unfold assign
  simp only [lt_irrefl, if_false]
  obtain ⟨ws, h1, h2, h3⟩ := copyWords_ok (dst := if o.null then List.replicate v.num_words 0#64 else o.words) (src := v.words) (N := v.num_words)
    (by cases hn : o.null
        · rw [hn] at ho; simpa [h.nw] using ho
        · simp)
    (by rw [h.nw]; exact h.len)
  rw [h1]
  rw [h.nw] at h3
  have := nwords_le n
  refine ⟨_, rfl, rfl, h.nb, h.nw, ?_, fun i => ?_, fun k hk hk' => ?_⟩
  · rw [h2]
    cases hn : o.null
    · rw [hn] at ho; simpa using ho
    · simp [h.nw]
  · rw [h3 _ (by have := i.2; omega)]; exact h.bit i
  · rw [h3 _ hk']; exact h.pad k hk hk'

theorem trim_zero {tm : TrimMask} (H : ∀ k, (tm k).Sat U fun _ => True) {v : BV} (h : Rep v (0 : Fin n → ZMod 2)) :
    (trim tm v).Sat U (fun r => Rep r (0 : Fin n → ZMod 2)) := by
  unfold trim
  by_cases hne : v.num_words * 64 = v.num_bits
  · rw [if_pos hne]; exact h
  · rw [if_neg hne]
    refine (H _).bind fun m _ => ?_
    have hl : v.num_words - 1 < v.words.length := by
      have := h.len; have := h.nw
      have h3 : v.num_words ≠ 0 := fun h0 => hne (by
        have h4 := nwords_le n; have := h.nb; have := h.nw; omega)
      omega
    rw [rd_g hl, ok_bind, wr_ok hl, ok_bind, Sat_ok]
    have hz : ∀ k, k < 64 * nwords n → bit v.words k = false := fun k hk => by
      by_cases hkn : k < n
      · exact b2_eq_zero.mp (h.bit ⟨k, hkn⟩)
      · exact h.pad k (by omega) hk
    have hz2 : ∀ k, k < 64 * nwords n → bit (v.words.set (v.num_words - 1) (g v.words (v.num_words - 1) &&& m)) k = false := fun k hk => by
      rw [bit_set hl]
      split
      · rename_i he
        have := hz k hk
        unfold bit at this
        rw [he] at this
        rw [BitVec.getLsbD_and, this]; rfl
      · exact hz k hk
    have := nwords_le n
    refine ⟨h.nn, h.nb, h.nw, by simpa using h.len, fun i => ?_, fun k _ hk => hz2 k hk⟩
    rw [hz2 _ (by have := i.2; omega)]; rfl

theorem fill_zero {tm : TrimMask} (H : ∀ k, (tm k).Sat U fun _ => True) (hn : 0 < n) :
    (fill tm false n).Sat U (fun r => Rep r (0 : Fin n → ZMod 2)) := by
  unfold fill
  rw [if_neg (by omega)]
  simp only [Bool.false_eq_true, if_false, Int.toNat_natCast]
  obtain ⟨r, e1, e2, e3⟩ := storeLoop_ok (body := fun i ws => wr ws i 0#64) (f := fun _ => 0#64) (ws := List.replicate (nwords n) 0#64) (N := nwords n)
    (by simp) (fun i s hi hl _ => by rw [wr_ok (by simp at hl; omega)])
  rw [e1, ok_bind]
  have hb : ∀ k, k < 64 * nwords n → bit r k = false := fun k hk => by
    rw [bit_of_g (N := nwords n) (fun j hj => by rw [e3, if_pos hj]) hk]; simp
  have := nwords_le n
  exact trim_zero H ⟨rfl, rfl, rfl, by simp [e2], fun i => by rw [hb _ (by have := i.2; omega)]; rfl, fun k _ hk => hb k hk⟩

/-! ### arithmetic -/

theorem binop_rep {op : BitVec 64 → BitVec 64 → BitVec 64} {f : Bool → Bool → Bool}
    (hop : ∀ x y i, i < 64 → (op x y).getLsbD i = f (x.getLsbD i) (y.getLsbD i)) (hf : f false false = false)
    {F : ZMod 2 → ZMod 2 → ZMod 2} (hF : ∀ a b, b2 (f a b) = F (b2 a) (b2 b)) (hn : 0 < n)
    {a b : BV} {x y : Fin n → ZMod 2} (ha : Rep a x) (hb : Rep b y) :
    ∃ r, binop op a b = ok r ∧ Rep r (fun i => F (x i) (y i)) := by
  unfold binop check_equal_lengths
  rw [ha.nb, hb.nb, if_neg (by simp), ok_bind]
  obtain ⟨rv, h1, h2⟩ := alloc_ok hn
  rw [h1, ok_bind]
  unfold wordwise
  obtain ⟨r, e1, e2, e3⟩ := storeLoop_ok (body := fun i d => store d i (do let x ← rd a.words i; let y ← rd b.words i; ok (op x y)))
    (f := fun i => op (g a.words i) (g b.words i)) (ws := rv.words) (N := a.num_words) (by rw [ha.nw]; exact h2.len)
    (fun i s hi hl _ => by
      have := ha.nw; have := ha.len; have := hb.len; have := h2.len
      unfold store
      rw [rd_g (by omega), rd_g (by omega)]
      simp only [ok_bind]
      rw [wr_ok (by omega)])
  rw [e1, ok_bind]
  have hbit : ∀ k, k < 64 * nwords n → bit r k = f (bit a.words k) (bit b.words k) := fun k hk => by
    rw [bit_of_g (N := a.num_words) (fun j hj => by rw [e3, if_pos hj]) (by rw [ha.nw]; exact hk), hop _ _ _ (by omega)]
    rfl
  have := nwords_le n
  refine ⟨_, rfl, h2.nn, h2.nb, h2.nw, by simpa [e2] using h2.len, fun i => ?_, fun k hk hk' => ?_⟩
  · rw [hbit _ (by have := i.2; omega), hF, ha.bit, hb.bit]
  · rw [hbit _ hk', ha.pad k hk hk', hb.pad k hk hk', hf]

theorem add_rep (hn : 0 < n) {a b : BV} {x y : Fin n → ZMod 2} (ha : Rep a x) (hb : Rep b y) :
    ∃ r, add a b = ok r ∧ Rep r (x + y) :=
  binop_rep (f := fun a b => a ^^ b) (fun x y i _ => BitVec.getLsbD_xor) rfl (F := fun a b => a + b) b2_xor hn ha hb

theorem sub_rep (hn : 0 < n) {a b : BV} {x y : Fin n → ZMod 2} (ha : Rep a x) (hb : Rep b y) :
    ∃ r, sub a b = ok r ∧ Rep r (x - y) :=
  binop_rep (f := fun a b => a ^^ b) (fun x y i _ => BitVec.getLsbD_xor) rfl (F := fun a b => a - b)
    (fun a b => by rw [zmod2_sub]; exact b2_xor a b) hn ha hb

theorem mul_rep (hn : 0 < n) {a b : BV} {x y : Fin n → ZMod 2} (ha : Rep a x) (hb : Rep b y) :
    ∃ r, mul a b = ok r ∧ Rep r (x * y) :=
  binop_rep (f := fun a b => a && b) (fun x y i _ => BitVec.getLsbD_and) rfl (F := fun a b => a * b) b2_and hn ha hb

theorem binop_throw {op : BitVec 64 → BitVec 64 → BitVec 64} {a b : BV} (h : a.num_bits ≠ b.num_bits) : binop op a b = throw := by
  unfold binop check_equal_lengths
  rw [if_pos h]; rfl

theorem smul_rep {a : BV} {x : Fin n → ZMod 2} (ha : Rep a x) (s : Bool) :
    ∃ r, smul a s = ok r ∧ Rep r (b2 s • x) := by
  unfold smul
  obtain ⟨c, h1, h2⟩ := copy_rep ha
  rw [h1, ok_bind]
  cases s
  · simp only [Bool.not_false, if_true]
    obtain ⟨r, e1, e2, e3⟩ := storeLoop_ok (body := fun i ws => wr ws i 0#64) (f := fun _ => 0#64) (ws := c.words) (N := c.num_words)
      (by rw [h2.nw]; exact h2.len) (fun i s hi hl _ => by
        have := h2.nw; have := h2.len
        rw [wr_ok (by omega)])
    rw [e1, ok_bind]
    have hb : ∀ k, k < 64 * nwords n → bit r k = false := fun k hk => by
      rw [bit_of_g (N := c.num_words) (fun j hj => by rw [e3, if_pos hj]) (by rw [h2.nw]; exact hk)]; simp
    have := nwords_le n
    exact ⟨_, rfl, h2.nn, h2.nb, h2.nw, by simpa [e2] using h2.len, fun i => by rw [hb _ (by have := i.2; omega)]; simp, fun k _ hk => hb k hk⟩
  · simp only [Bool.not_true, Bool.false_eq_true, if_false]
    exact ⟨_, rfl, by simpa using h2⟩

theorem xorAssign_rep {a b : BV} {x y : Fin n → ZMod 2} (ha : Rep a x) (hb : Rep b y) :
    ∃ r, xorAssign a b = ok r ∧ Rep r (x + y) := by
  unfold xorAssign
  obtain ⟨r, e1, e2, e3⟩ := storeLoop_ok (body := fun i ws => store ws i (do let x ← rd ws i; let y ← rd b.words i; ok (x ^^^ y)))
    (f := fun i => g a.words i ^^^ g b.words i) (ws := a.words) (N := a.num_words) (by rw [ha.nw]; exact ha.len)
    (fun i s hi hl hg => by
      have := ha.nw; have := ha.len; have := hb.len
      unfold store
      rw [rd_g (by omega), rd_g (by omega)]
      simp only [ok_bind]
      rw [wr_ok (by omega), hg i le_rfl])
  rw [e1, ok_bind]
  have hbit : ∀ k, k < 64 * nwords n → bit r k = (bit a.words k ^^ bit b.words k) := fun k hk => by
    rw [bit_of_g (N := a.num_words) (fun j hj => by rw [e3, if_pos hj]) (by rw [ha.nw]; exact hk), BitVec.getLsbD_xor]
    rfl
  have := nwords_le n
  refine ⟨_, rfl, ha.nn, ha.nb, ha.nw, by simpa [e2] using ha.len, fun i => ?_, fun k hk hk' => ?_⟩
  · rw [hbit _ (by have := i.2; omega), b2_xor, ha.bit, hb.bit]; rfl
  · rw [hbit _ hk', ha.pad k hk hk', hb.pad k hk hk']; rfl

theorem accum_rep {a b : BV} {x y : Fin n → ZMod 2} (ha : Rep a x) (hb : Rep b y) :
    ∃ r, accum_row a b = ok r ∧ Rep r (x + y) := by
  unfold accum_row
  rw [if_neg (by rw [ha.nb, hb.nb]; simp)]
  exact xorAssign_rep ha hb

theorem ptrswap_rep {a b : BV} {x y : Fin n → ZMod 2} (ha : Rep a x) (hb : Rep b y) :
    ∃ r, ptrswap a b = ok r ∧ Rep r.1 y ∧ Rep r.2 x := by
  unfold ptrswap
  rw [if_neg (by rw [ha.nb, hb.nb]; simp)]
  exact ⟨_, rfl, ⟨ha.nn, ha.nb, ha.nw, hb.len, hb.bit, hb.pad⟩, ⟨hb.nn, hb.nb, hb.nw, ha.len, ha.bit, ha.pad⟩⟩

/-! ### zero test, leading position -/

theorem word_zero_iff {ws : List (BitVec 64)} {i : ℕ} : g ws i = 0#64 ↔ ∀ k, k / 64 = i → bit ws k = false := by
  constructor
  · intro h k hk
    unfold bit; rw [hk, h]; simp
  · intro h
    apply BitVec.eq_of_getLsbD_eq
    intro b hb
    have := h (64 * i + (63 - b)) (by omega)
    rw [bit_word ws hb] at this
    simpa using this

theorem isZeroLoop_ok {ws : List (BitVec 64)} : ∀ k i, k + i ≤ ws.length → ∃ b, isZeroLoop ws k i = ok b ∧
    (b = true ↔ ∀ t, 64 * i ≤ t → t < 64 * (k + i) → bit ws t = false)
  | 0, i, h => ⟨true, rfl, by simp only [true_iff]; intro t h1 h2; omega⟩
  | k + 1, i, h => by
    unfold isZeroLoop
    rw [rd_g (ps := ws) (j := i) (by omega)]
    simp only [ok_bind]
    by_cases hw : g ws i = 0#64
    · obtain ⟨b, h1, h2⟩ := isZeroLoop_ok (ws := ws) k (i + 1) (by omega)
      rw [if_neg (by simpa using hw)]
      refine ⟨b, h1, h2.trans ⟨fun hh t ht1 ht2 => ?_, fun hh t ht1 ht2 => hh t (by omega) (by omega)⟩⟩
      by_cases hti : t / 64 = i
      · exact word_zero_iff.mp hw t hti
      · exact hh t (by omega) (by omega)
    · rw [if_pos hw]
      refine ⟨false, rfl, by simp only [Bool.false_eq_true, false_iff]; intro hh; exact hw (word_zero_iff.mpr fun t ht => hh t (by omega) (by omega))⟩

theorem zero_iff {v : BV} {x : Fin n → ZMod 2} (h : Rep v x) : x = 0 ↔ ∀ t, t < 64 * nwords n → bit v.words t = false := by
  have := nwords_le n
  constructor
  · intro hx t ht
    by_cases htn : t < n
    · exact b2_eq_zero.mp (by rw [h.bit ⟨t, htn⟩, hx]; rfl)
    · exact h.pad t (by omega) ht
  · intro hh
    funext i
    rw [← h.bit i, hh _ (by have := i.2; omega)]; rfl

theorem is_zero_rep {v : BV} {x : Fin n → ZMod 2} (h : Rep v x) : ∃ b, is_zero v = ok b ∧ (b = true ↔ x = 0) := by
  unfold is_zero
  rw [h.nw]
  obtain ⟨b, h1, h2⟩ := isZeroLoop_ok (ws := v.words) (nwords n) 0 h.len
  exact ⟨b, h1, by rw [h2, zero_iff h]; exact ⟨fun hh t ht => hh t (by omega) (by omega), fun hh t _ ht => hh t (by omega)⟩⟩

theorem leaderLoop_ok {ws : List (BitVec 64)} : ∀ k i, k + i ≤ ws.length → ∃ r, leaderLoop ws k i = ok r ∧
    match r with
    | none => ∀ t, 64 * i ≤ t → t < 64 * (k + i) → bit ws t = false
    | some p => 64 * i ≤ p ∧ p < 64 * (k + i) ∧ bit ws p = true ∧ ∀ t, 64 * i ≤ t → t < p → bit ws t = false
  | 0, i, h => ⟨none, rfl, fun t h1 h2 => by omega⟩
  | k + 1, i, h => by
    unfold leaderLoop
    rw [rd_g (ps := ws) (j := i) (by omega)]
    simp only [ok_bind]
    by_cases hw : g ws i = 0#64
    · obtain ⟨r, h1, h2⟩ := leaderLoop_ok (ws := ws) k (i + 1) (by omega)
      rw [if_neg (by simpa using hw)]
      refine ⟨r, h1, ?_⟩
      have hz : ∀ t, t / 64 = i → bit ws t = false := word_zero_iff.mp hw
      cases r with
      | none =>
        intro t ht1 ht2
        by_cases hti : t / 64 = i
        · exact hz t hti
        · exact h2 t (by omega) (by omega)
      | some p =>
        obtain ⟨g1, g2, g3, g4⟩ := h2
        refine ⟨by omega, by omega, g3, fun t ht1 ht2 => ?_⟩
        by_cases hti : t / 64 = i
        · exact hz t hti
        · exact g4 t (by omega) ht2
    · rw [if_pos hw, F2P.log2_word hw]
      simp only [ok_bind]
      obtain ⟨t1, t2, t3⟩ := F2P.word_top hw
      set L := Nat.log 2 (g ws i).toNat with hL
      refine ⟨_, rfl, by omega, by omega, ?_, fun t ht1 ht2 => ?_⟩
      · have := bit_word ws (j := i) t1
        rw [show 63 - L + i * 64 = 64 * i + (63 - L) by omega, this, t2]
      · unfold bit
        rw [show t / 64 = i by omega]
        exact t3 _ (by omega)

theorem find_leader_rep {v : BV} {x : Fin n → ZMod 2} (h : Rep v x) : ∃ r, find_leader_pos v = ok r ∧
    match r with
    | none => x = 0
    | some p => ∃ hp : p < n, x ⟨p, hp⟩ = 1 ∧ ∀ l : Fin n, (l : ℕ) < p → x l = 0 := by
  unfold find_leader_pos
  rw [h.nw]
  obtain ⟨r, h1, h2⟩ := leaderLoop_ok (ws := v.words) (nwords n) 0 h.len
  refine ⟨r, h1, ?_⟩
  cases r with
  | none => exact (zero_iff h).mpr fun t ht => h2 t (by omega) (by omega)
  | some p =>
    obtain ⟨_, g2, g3, g4⟩ := h2
    have hp : p < n := by
      by_contra hc
      rw [h.pad p (by omega) (by omega)] at g3; cases g3
    refine ⟨hp, ?_, fun l hl => ?_⟩
    · rw [← h.bit ⟨p, hp⟩]; simp [g3]
    · rw [← h.bit l, g4 _ (by omega) hl]; rfl

/-! ### dot product -/

theorem parity_word (w : BitVec 64) : ∃ c : ℤ, count_one_bits (F2P.bytes w) 8 = ok c ∧ 0 ≤ c ∧
    (c : ZMod 2) = ∑ i ∈ Finset.range 64, b2 (w.getLsbD i) := by
  refine ⟨_, count_one_bits_ok (F2P.bytes w) 8 (by
        intro b hb; unfold F2P.bytes at hb; simp only [List.mem_map] at hb
        obtain ⟨k, _, rfl⟩ := hb; omega) (by simp [F2P.bytes]) (by norm_num), by positivity, ?_⟩
  have e8 : (F2P.bytes w).take 8 = F2P.bytes w := by
    apply List.take_of_length_le; simp [F2P.bytes]
  rw [e8, F2P.word_bits]
  push_cast
  exact Finset.sum_congr rfl fun i _ => by unfold b2; split <;> simp

theorem sum_word (f : ℕ → ZMod 2) (N : ℕ) :
    ∑ k ∈ Finset.range (64 * N), f k = ∑ j ∈ Finset.range N, ∑ b ∈ Finset.range 64, f (64 * j + (63 - b)) := by
  induction N with
  | zero => simp
  | succ N ih =>
    rw [Nat.mul_succ, Finset.sum_range_add f (64 * N) 64, ih, Finset.sum_range_succ _ N]
    refine congrArg _ ?_
    rw [← Finset.sum_range_reflect (fun x => f (64 * N + x)) 64]

theorem dot_rep {a b : BV} {x y : Fin n → ZMod 2} (ha : Rep a x) (hb : Rep b y) :
    ∃ r, dot a b = ok r ∧ b2 r = ∑ i, x i * y i := by
  unfold dot
  rw [if_neg (by rw [ha.nb, hb.nb]; simp)]
  have h1 : ∃ acc : BitVec 64, (forUp 0 a.num_words 0#64 fun i acc => do
      let x ← rd a.words i
      let y ← rd b.words i
      ok (acc ^^^ (x &&& y))) = ok acc ∧ ∀ t, t < 64 → b2 (acc.getLsbD t) =
        ∑ j ∈ Finset.range (nwords n), b2 ((g a.words j).getLsbD t) * b2 ((g b.words j).getLsbD t) := by
    have := forUp_ok (body := fun i (acc : BitVec 64) => do
      let x ← rd a.words i
      let y ← rd b.words i
      ok (acc ^^^ (x &&& y))) (fun i acc => ∀ t, t < 64 → b2 (acc.getLsbD t) =
        ∑ j ∈ Finset.range i, b2 ((g a.words j).getLsbD t) * b2 ((g b.words j).getLsbD t)) (Nat.zero_le a.num_words)
      (s := 0#64) (fun t _ => by simp) (fun i acc _ hi hI => by
        have := ha.nw; have := ha.len; have := hb.len
        rw [rd_g (by omega), rd_g (by omega)]
        simp only [ok_bind, Ok_ok]
        intro t ht
        rw [BitVec.getLsbD_xor, BitVec.getLsbD_and, b2_xor, b2_and, hI t ht, Finset.sum_range_succ])
    rw [ha.nw] at this
    rw [ha.nw]
    exact this
  obtain ⟨acc, e1, e2⟩ := h1
  rw [e1]
  simp only [ok_bind]
  obtain ⟨c, c1, c2, c3⟩ := parity_word acc
  rw [c1]
  refine ⟨_, rfl, ?_⟩
  have hc : b2 (decide (c % 2 = 1)) = (c : ZMod 2) := by
    have := ZMod.intCast_mod c 2
    rw [← this]
    rcases Int.emod_two_eq_zero_or_one c with h | h <;> simp [h]
  rw [hc, c3, Finset.sum_congr rfl fun t ht => e2 t (Finset.mem_range.mp ht), Finset.sum_comm]
  have e3 : ∑ j ∈ Finset.range (nwords n), ∑ t ∈ Finset.range 64, b2 ((g a.words j).getLsbD t) * b2 ((g b.words j).getLsbD t) =
      ∑ k ∈ Finset.range (64 * nwords n), b2 (bit a.words k) * b2 (bit b.words k) := by
    rw [sum_word]
    refine Finset.sum_congr rfl fun j _ => Finset.sum_congr rfl fun t ht => ?_
    rw [bit_word _ (Finset.mem_range.mp ht), bit_word _ (Finset.mem_range.mp ht)]
  rw [e3]
  have hle := nwords_le n
  rw [← Finset.sum_subset (Finset.range_subset_range.mpr hle) (fun k hk hkn => by
    simp only [Finset.mem_range] at hk hkn
    rw [ha.pad k (by omega) hk]; simp), Finset.sum_range]
  exact Finset.sum_congr rfl fun i _ => by rw [ha.bit, hb.bit]

end BV
end Spffl

namespace Spffl
open Res
open F2P (g rd_g g_set g_of_le g_replicate)
namespace BV
variable {n : ℕ}

/-! ### what equality compares -/

theorem eqLoop_ok {a b : List (BitVec 64)} : ∀ k i, k + i ≤ a.length → k + i ≤ b.length → ∃ r, eqLoop a b k i = ok r ∧
    (r = true ↔ ∀ t, 64 * i ≤ t → t < 64 * (k + i) → bit a t = bit b t)
  | 0, i, h, h' => ⟨true, rfl, by simp only [true_iff]; intro t h1 h2; omega⟩
  | k + 1, i, h, h' => by
    unfold eqLoop
    rw [rd_g (ps := a) (j := i) (by omega), rd_g (ps := b) (j := i) (by omega)]
    simp only [ok_bind]
    by_cases hw : g a i = g b i
    · obtain ⟨r, h1, h2⟩ := eqLoop_ok (a := a) (b := b) k (i + 1) (by omega) (by omega)
      rw [if_neg (by simpa using hw)]
      refine ⟨r, h1, h2.trans ⟨fun hh t ht1 ht2 => ?_, fun hh t ht1 ht2 => hh t (by omega) (by omega)⟩⟩
      by_cases hti : t / 64 = i
      · unfold bit; rw [hti, hw]
      · exact hh t (by omega) (by omega)
    · rw [if_pos hw]
      refine ⟨false, rfl, by
        simp only [Bool.false_eq_true, false_iff]; intro hh; apply hw
        apply BitVec.eq_of_getLsbD_eq
        intro c hc
        rw [← bit_word a hc, ← bit_word b hc]
        exact hh _ (by omega) (by omega)⟩

/-- `operator==` looks at all the words except the last. -/
theorem eq_rep {a b : BV} {x y : Fin n → ZMod 2} (ha : Rep a x) (hb : Rep b y) :
    ∃ r, eq a b = ok r ∧ (r = true ↔ ∀ i : Fin n, (i : ℕ) < 64 * (nwords n - 1) → x i = y i) := by
  unfold eq
  rw [ha.nb, hb.nb, if_neg (by simp), ha.nw]
  obtain ⟨r, h1, h2⟩ := eqLoop_ok (a := a.words) (b := b.words) (nwords n - 1) 0 (by have := ha.len; omega) (by have := hb.len; omega)
  refine ⟨r, h1, h2.trans ⟨fun hh i hi => ?_, fun hh t _ ht => ?_⟩⟩
  · rw [← ha.bit i, ← hb.bit i, hh i (by omega) (by omega)]
  · have htn : t < n := by unfold nwords at ht; omega
    have := hh ⟨t, htn⟩ (by simpa using ht)
    rw [← ha.bit, ← hb.bit] at this
    exact b2_inj.mp this

/-- every vector is held by some object -/
theorem exists_rep (x : Fin n → ZMod 2) (hn : 0 < n) : ∃ v, Rep v x := by
  obtain ⟨v0, _, h0⟩ := alloc_ok hn
  have key : ∀ k, k ≤ n → ∃ v, Rep v (fun i : Fin n => if (i : ℕ) < k then x i else 0) := by
    intro k
    induction k with
    | zero => intro _; exact ⟨v0, cast (by congr 1) h0⟩
    | succ k ih =>
      intro hk
      obtain ⟨v, hv⟩ := ih (by omega)
      obtain ⟨r, _, hr⟩ := set_rep hv (i := k) (by omega) (decide (x ⟨k, by omega⟩ = 1))
      refine ⟨r, cast ?_ hr⟩
      congr 1
      funext i
      by_cases hi : i = ⟨k, by omega⟩
      · subst hi
        rw [Function.update_self]
        rcases zmod2_cases (x ⟨k, by omega⟩) with h | h <;> simp [h]
      · rw [Function.update_of_ne hi]
        have : (i : ℕ) ≠ k := fun h => hi (Fin.ext h)
        congr 1
        simp only [eq_iff_iff]; omega
  obtain ⟨v, hv⟩ := key n le_rfl
  exact ⟨v, cast (by congr 1; funext i; simp) hv⟩

theorem Rep.functional {v : BV} {x y : Fin n → ZMod 2} (hx : Rep v x) (hy : Rep v y) : x = y :=
  funext fun i => by rw [← hx.bit, ← hy.bit]

/-- filling with ones, for whole numbers of words -/
theorem fill_one {tm : TrimMask} {k : ℕ} (hk : 0 < k) : ∃ r, fill tm true (64 * k : ℕ) = ok r ∧ Rep r (fun _ : Fin (64 * k) => (1 : ZMod 2)) := by
  unfold fill
  rw [if_neg (by omega)]
  simp only [if_true, Int.toNat_natCast]
  have hnw : nwords (64 * k) = k := by unfold nwords; omega
  obtain ⟨r, e1, e2, e3⟩ := storeLoop_ok (body := fun i ws => wr ws i (~~~0#64)) (f := fun _ => ~~~0#64) (ws := List.replicate (nwords (64 * k)) 0#64) (N := nwords (64 * k))
    (by simp) (fun i s hi hl _ => by rw [wr_ok (by simp at hl; omega)])
  rw [e1, ok_bind]
  unfold trim
  rw [if_pos (by simp only [hnw]; omega)]
  refine ⟨_, rfl, rfl, rfl, rfl, by simp [e2], fun i => ?_, fun t h1 h2 => by rw [hnw] at h2; omega⟩
  rw [bit_of_g (N := nwords (64 * k)) (fun j hj => by rw [e3, if_pos hj]) (by rw [hnw]; exact i.2)]
  rw [BitVec.getLsbD_not, b2_eq_one]
  simp; omega

theorem ishl_ub {x c : ℤ} (h : c < 0 ∨ 31 < c) : ishl x c = ub := by
  unfold ishl; rw [if_neg (by omega)]

/-- The mask of trim is never defined. -/
theorem strictMask_ub {nb : ℕ} (h1 : 1 ≤ nb) (h2 : nb % 64 ≠ 0) (hb : nb ≤ 2147483584) : strictMask nb = ub := by
  unfold strictMask
  rw [chk_ok ⟨by omega, by omega⟩, ok_bind]
  unfold isub
  rw [chk_ok ⟨by omega, by omega⟩, ok_bind]
  have hr : (64 : ℤ) - (((nb + 63) / 64 * 64 : ℕ) - nb) = (nb % 64 : ℕ) := by omega
  rw [hr]
  rcases Nat.lt_or_ge (nb % 64) 32 with h | h
  · unfold ishl
    rw [if_pos ⟨by omega, by omega⟩, ok_bind]
    unfold chk
    split
    · rw [ok_bind, if_neg (by split <;> omega)]; rfl
    · rfl
  · rw [ishl_ub (by omega)]; rfl

end BV
end Spffl
